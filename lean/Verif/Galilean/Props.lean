import Verif.Galilean.Lemmas

/-! # C104: the simulations with a uniform velocity added to the flow -/

set_option linter.unusedSectionVars false

namespace Verif.Galilean

open Verif.Fourier Verif.Energy Verif.Galerkin Verif.Vectors Verif.EndToEnd Verif.Convergence Finset

noncomputable section

variable {D V : Type*} [Fintype D] [DecidableEq D]

/-- C104: the meaning of `moving`: at the time `t`, the value at the point `x` is the one of the first flow at the point `x - U t`, plus
the uniform value. -/
theorem C104_moving {S : Finset (D → ℤ)} (h0 : (0 : D → ℤ) ∈ S) (δ U : D → ℝ) (m : V → ℝ) (u : ℝ → V → Fld D) (t : ℝ) (v : V)
    (x : D → ℝ) :
    Symmetry.value S δ (moving δ U m u t v) x = m v + Symmetry.value S δ (u t v) (fun d => x d - U d * t) := by
  simp only [Symmetry.value, moving, add_mul, sum_add_distrib]
  rw [add_comm]
  congr 1
  · rw [sum_eq_single_of_mem 0 h0]
    · simp
    · intro k _ hk
      simp [hk]
  · refine sum_congr rfl fun k _ => ?_
    rw [mul_comm (Complex.exp _), mul_assoc, ← Complex.exp_add]
    congr 2
    simp only [mul_sub, sum_sub_distrib]
    push_cast
    ring

/-! ### Burgers -/

theorem burgers_moving {S : Finset (Unit → ℤ)} (h0 : (0 : Unit → ℤ) ∈ S) {δ : ℝ} {nu : Dissip.Nu} {F : Fld Unit} {T U : ℝ}
    (hF : NotAlong (fun _ => δ) (fun _ => U) fun _ : Unit => F) {u : ℝ → Fld Unit} (h : FlowBurgers S δ nu F T u) :
    FlowBurgers S δ nu F T fun t => boost (fun _ => δ) (fun _ => U) U t (u t) where
  real t ht := boost_real h0 _ _ U t (h.real t ht)
  eq t ht k hk := by
    refine (boost_deriv (fun _ => δ) (fun _ => U) U (h.eq t ht k hk)).congr_deriv ?_
    rw [advect_boost h0 (fun _ => δ) (fun _ => U) U t (fun _ => u t) (u t) hk, dissipation_boost]
    linear_combination phase_force hF t () k

/-- C104, burgers1d and burgers1d.skew_sym: when a uniform velocity `U` is added to the initial velocity, the simulations converge to the
solution without it, translated by `U t`, plus `U`. -/
theorem C104_burgers (skew : Bool) {nx : ℕ} (hn : 1 < nx) {S : Finset (Unit → ℤ)} (h3 : ∀ k ∈ S, 3 * |k ()| < nx)
    (h0 : (0 : Unit → ℤ) ∈ S) (δ : ℝ) {nu : Dissip.Nu} (hnu : Nu.Ok nu) (U : ℝ) {F : Fld Unit} (hF : RealField S F)
    (hFU : NotAlong (fun _ => δ) (fun _ => U) fun _ : Unit => F) {u0 : Fld Unit} (hu0 : RealField S u0) {T : ℝ} (hT : 0 ≤ T) :
    ∃ u : ℝ → Unit → Fld Unit, u 0 () = u0 ∧ FlowBurgers S δ nu F T (fun t => u t ()) ∧
      SimulationsConverge S (fun _ => δ) nu (forced (fun _ : Unit => F) (tendBurgers skew nx S δ)) T u ∧
      SimulationsConverge S (fun _ => δ) nu (forced (fun _ : Unit => F) (tendBurgers skew nx S δ)) T
        (moving (fun _ => δ) (fun _ => U) (fun _ => U) u) := by
  obtain ⟨u, e0, hu, -, hc⟩ := C87_burgers skew hn h3 δ hnu hF hu0 hT
  have hm := burgers_moving (U := U) h0 hFU hu
  obtain ⟨w, e1, -, hw, hcw⟩ := C87_burgers skew hn h3 δ hnu hF (hm.real 0 ⟨le_rfl, hT⟩) hT
  refine ⟨fun t _ => u t, e0, hu, hc, ?_⟩
  intro G hG c hcm ps pa pb heap g1 g2 cfl
  have he : ∀ t ∈ Set.Icc 0 T, (fun _ : Unit => w t)
      = moving (fun _ => δ) (fun _ => U) (fun _ => U) (fun t (_ : Unit) => u t) t := fun t ht => by
    funext v
    rw [moving_eq, hw _ rfl hm t ht]
  have := hcw G hG c hcm ps pa pb heap g1 g2 cfl
  have h00 := he 0 ⟨le_rfl, hT⟩
  simp only [] at this
  rw [h00] at this
  exact converges_congr (fun t ht => by rw [he t ht]) this

/-! ### ns3d -/

theorem comp_vec (u : Fin 3 → Fld (Fin 3)) : comp (vec u) = u := by
  funext c
  fin_cases c <;> rfl

theorem vec_boost (δ U : Fin 3 → ℝ) (t : ℝ) (u : Fin 3 → Fld (Fin 3)) (k : Fin 3 → ℤ) (hk : k ≠ 0) :
    vec (fun c => boost δ U (U c) t (u c)) k
      = ⟨phase δ U t k * (vec u k).x + 0 * (vec u k).x, phase δ U t k * (vec u k).y + 0 * (vec u k).y,
        phase δ U t k * (vec u k).z + 0 * (vec u k).z⟩ := by
  simp [vec, boost, hk]

theorem vec_boost_zero (δ U : Fin 3 → ℝ) (t : ℝ) (u : Fin 3 → Fld (Fin 3)) :
    vec (fun c => boost δ U (U c) t (u c)) 0
      = ⟨1 * (vec u 0).x + 1 * (U 0 : ℂ), 1 * (vec u 0).y + 1 * (U 1 : ℂ), 1 * (vec u 0).z + 1 * (U 2 : ℂ)⟩ := by
  simp [vec, boost, phase_zero]

/-- The uniform velocity is not changed by the projection of the solver. -/
def Uniform (δ : Fin 3 → ℝ) (p : Projection) (noVz : Bool) (U : Fin 3 → ℝ) : Prop :=
  projV p noVz (wave3 δ 0) ⟨U 0, U 1, U 2⟩ = ⟨U 0, U 1, U 2⟩

theorem admissible_boost {S : Finset (Fin 3 → ℤ)} (h0 : (0 : Fin 3 → ℤ) ∈ S) {δ U : Fin 3 → ℝ} {p : Projection} {noVz : Bool}
    (hU : Uniform δ p noVz U) (t : ℝ) {v : Fin 3 → Fld (Fin 3)} (hv : Admissible S δ p noVz v) :
    Admissible S δ p noVz fun c => boost δ U (U c) t (v c) := by
  refine ⟨fun c => boost_real h0 δ U _ t (hv.1 c), fun k hk => ?_⟩
  by_cases h : k = 0
  · subst h
    rw [vec_boost_zero, projV_linear p noVz (wave3 δ 0) 1 1 (vec v 0) ⟨U 0, U 1, U 2⟩, hv.2 0 hk, hU]
  · rw [vec_boost δ U t v k h, projV_linear p noVz (wave3 δ k) _ 0 (vec v k) (vec v k), hv.2 k hk]

theorem navier_boost {S : Finset (Fin 3 → ℤ)} (h0 : (0 : Fin 3 → ℤ) ∈ S) {δ U : Fin 3 → ℝ} {f : ℝ} (hf : f * U 0 = 0 ∧ f * U 1 = 0)
    (t : ℝ) (v : Fin 3 → Fld (Fin 3)) {k : Fin 3 → ℤ} (hk : k ∈ S) :
    navierStokes S δ f (vec fun c => boost δ U (U c) t (v c)) k =
      ⟨phase δ U t k * (navierStokes S δ f (vec v) k).x + -(phase δ U t k * (Complex.I * along δ U k)) * (vec v k).x,
       phase δ U t k * (navierStokes S δ f (vec v) k).y + -(phase δ U t k * (Complex.I * along δ U k)) * (vec v k).y,
       phase δ U t k * (navierStokes S δ f (vec v) k).z + -(phase δ U t k * (Complex.I * along δ U k)) * (vec v k).z⟩ := by
  have hz : ∀ c : ℝ, f * c = 0 → (f : ℂ) * (if k = 0 then (c : ℂ) else 0) = 0 := by
    intro c hc
    split_ifs
    · rw [← Complex.ofReal_mul, hc, Complex.ofReal_zero]
    · ring
  have z0 := hz _ hf.1
  have z1 := hz _ hf.2
  simp only [navierStokes, comp_vec, advect_boost h0 δ U _ t v _ hk, V3.mk.injEq]
  simp only [vec, boost]
  refine ⟨?_, ?_, ?_⟩
  · linear_combination z1
  · linear_combination -z0
  · ring

theorem flow3_moving {S : Finset (Fin 3 → ℤ)} (h0 : (0 : Fin 3 → ℤ) ∈ S) {δ U : Fin 3 → ℝ} {f : ℝ} (hf : f * U 0 = 0 ∧ f * U 1 = 0)
    {p : Projection} {noVz : Bool} (hU : Uniform δ p noVz U) {nu : Dissip.Nu} {F : Fin 3 → Fld (Fin 3)} (hF : NotAlong δ U F) {T : ℝ}
    {v : ℝ → Fin 3 → Fld (Fin 3)} (h : Flow3 S δ f p noVz nu F T v) : Flow3 S δ f p noVz nu F T (moving δ U U v) where
  adm t ht := admissible_boost h0 hU t (h.adm t ht)
  eq t ht c k hk := by
    refine (boost_deriv δ U (U c) (h.eq t ht c k hk)).congr_deriv ?_
    have e := projV_linear p noVz (wave3 δ k) (phase δ U t k) (-(phase δ U t k * (Complex.I * along δ U k)))
      (navierStokes S δ f (vec (v t)) k) (vec (v t) k)
    have hc : components (fun k => projV p noVz (wave3 δ k) (navierStokes S δ f (vec (moving δ U U v t)) k)) c k
        = phase δ U t k * components (fun k => projV p noVz (wave3 δ k) (navierStokes S δ f (vec (v t)) k)) c k
          - phase δ U t k * (Complex.I * along δ U k) * v t c k := by
      simp only [(h.adm t ht).2 k hk] at e
      have hp := (congrArg (projV p noVz (wave3 δ k)) (navier_boost h0 hf t (v t) hk)).trans e
      fin_cases c
      · refine (congrArg V3.x hp).trans ?_
        simp only [components, vec, Fin.zero_eta]
        ring
      · refine (congrArg V3.y hp).trans ?_
        simp only [components, vec, Fin.mk_one]
        ring
      · refine (congrArg V3.z hp).trans ?_
        simp only [components, vec, Fin.reduceFinMk]
        ring
    rw [hc, moving_eq, dissipation_boost]
    linear_combination phase_force hF t c k

/-- C104, ns3d: when a uniform velocity `U` is added to the initial velocity (with rotation, only along the axis), the simulations
converge to the flow without it, translated by `U t`, plus `U`. -/
theorem C104_ns3d {n : Fin 3 → ℕ} (hn : ∀ d, 0 < n d) {S : Finset (Fin 3 → ℤ)} (hS : NoAlias n S) (h0 : (0 : Fin 3 → ℤ) ∈ S)
    (δ U : Fin 3 → ℝ) (f : Option ℝ) (hf : f.getD 0 * U 0 = 0 ∧ f.getD 0 * U 1 = 0) (p : Projection) (noVz : Bool)
    (hU : Uniform δ p noVz U) {nu : Dissip.Nu} (hnu : Nu.Ok nu) {F : Fin 3 → Fld (Fin 3)} (hF : Admissible S δ p noVz F)
    (hFU : NotAlong δ U F) {v0 : Fin 3 → Fld (Fin 3)} (hv0 : Admissible S δ p noVz v0) {T : ℝ} (hT : 0 ≤ T) :
    ∃ v : ℝ → Fin 3 → Fld (Fin 3), v 0 = v0 ∧ Flow3 S δ (f.getD 0) p noVz nu F T v ∧
      SimulationsConverge3d S δ nu (fun G => project3d G δ p noVz) (forced F (tend3d n S δ f p noVz)) T v ∧
      SimulationsConverge3d S δ nu (fun G => project3d G δ p noVz) (forced F (tend3d n S δ f p noVz)) T (moving δ U U v) := by
  obtain ⟨v, e0, hv, -, hc⟩ := C87_ns3d hn hS δ f p noVz hnu hF hv0 hT
  have hm := flow3_moving h0 hf hU hFU hv
  obtain ⟨w, e1, -, hw, hcw⟩ := C87_ns3d hn hS δ f p noVz hnu hF (hm.adm 0 ⟨le_rfl, hT⟩) hT
  have he : ∀ t ∈ Set.Icc 0 T, w t = moving δ U U v t := fun t ht => (hw _ rfl hm t ht).symm
  refine ⟨v, e0, hv, hc, ?_⟩
  intro G hG c hcm ps pa pb heap g1 g2 cfl
  have := hcw G hG c hcm ps pa pb heap g1 g2 cfl
  rw [he 0 ⟨le_rfl, hT⟩] at this
  exact converges_congr (fun t ht => by rw [he t ht]) this

/-- C104: with the default projection, all the uniform velocities are possible; with `no_vz_kz0`, those without vertical component. -/
theorem C104_uniform (δ U : Fin 3 → ℝ) (noVz : Bool) : Uniform δ .none noVz U ↔ (noVz = true → U 2 = 0) := by
  have h : wave3 δ 0 = ⟨0, 0, 0⟩ := by simp [wave3]
  cases noVz <;> simp [Uniform, projV, projector, perpk, kradial, h, @eq_comm _ (0 : ℂ)]

/-! ### ns3d.strat -/

theorem flow4_moving {S : Finset (Fin 3 → ℤ)} (h0 : (0 : Fin 3 → ℤ) ∈ S) {δ U : Fin 3 → ℝ} {f N : ℝ} (hf : f * U 0 = 0 ∧ f * U 1 = 0)
    (hN : N * U 2 = 0) {p : Projection} (hU : Uniform δ p false U) {nu : Dissip.Nu} {F : Fin 4 → Fld (Fin 3)} (hF : NotAlong δ U F)
    {T : ℝ} {u : ℝ → Fin 4 → Fld (Fin 3)} (h : Flow3Strat S δ f N p nu F T u) :
    Flow3Strat S δ f N p nu F T (moving δ U ![U 0, U 1, U 2, 0] u) := by
  have hvel : ∀ t, velocity (moving δ U ![U 0, U 1, U 2, 0] u t) = fun c => boost δ U (U c) t (velocity (u t) c) := by
    intro t
    funext c
    fin_cases c <;> rfl
  have hb : ∀ t, moving δ U ![U 0, U 1, U 2, 0] u t 3 = boost δ U 0 t (u t 3) := fun t => rfl
  have hb0 : ∀ t k, boost δ U 0 t (u t 3) k = phase δ U t k * u t 3 k := fun t k => by
    simp [boost]
  refine ⟨fun t ht => ⟨?_, ?_⟩, fun t ht c k hk => ?_, fun t ht k hk => ?_⟩
  · rw [hvel]
    exact admissible_boost h0 hU t (h.adm t ht).1
  · rw [hb]
    exact boost_real h0 δ U 0 t (h.adm t ht).2
  · simp only [hvel]
    refine (boost_deriv δ U (U c) (h.eqv t ht c k hk)).congr_deriv ?_
    have hadm := (h.adm t ht).1.2 k hk
    rw [projV_false] at hadm
    have e := projV_linear p false (wave3 δ k) (phase δ U t k) (-(phase δ U t k * (Complex.I * along δ U k)))
      (add (navierStokes S δ f (vec (velocity (u t))) k) ⟨0, 0, u t 3 k⟩) (vec (velocity (u t)) k)
    simp only [projV_false, hadm] at e
    have hc : components (fun k => projector p (wave3 δ k) (add (navierStokes S δ f
          (vec fun c => boost δ U (U c) t (velocity (u t) c)) k) ⟨0, 0, moving δ U ![U 0, U 1, U 2, 0] u t 3 k⟩)) c k
        = phase δ U t k * components (fun k => projector p (wave3 δ k) (add (navierStokes S δ f (vec (velocity (u t))) k)
            ⟨0, 0, u t 3 k⟩)) c k
          - phase δ U t k * (Complex.I * along δ U k) * velocity (u t) c k := by
      have e3 : add (navierStokes S δ f (vec fun c => boost δ U (U c) t (velocity (u t) c)) k)
          ⟨0, 0, moving δ U ![U 0, U 1, U 2, 0] u t 3 k⟩ =
          (⟨phase δ U t k * (add (navierStokes S δ f (vec (velocity (u t))) k) ⟨0, 0, u t 3 k⟩).x
          + -(phase δ U t k * (Complex.I * along δ U k)) * (vec (velocity (u t)) k).x,
          phase δ U t k * (add (navierStokes S δ f (vec (velocity (u t))) k) ⟨0, 0, u t 3 k⟩).y
          + -(phase δ U t k * (Complex.I * along δ U k)) * (vec (velocity (u t)) k).y,
          phase δ U t k * (add (navierStokes S δ f (vec (velocity (u t))) k) ⟨0, 0, u t 3 k⟩).z
          + -(phase δ U t k * (Complex.I * along δ U k)) * (vec (velocity (u t)) k).z⟩ : V3) := by
        rw [hb, navier_boost h0 hf t (velocity (u t)) hk, hb0]
        simp only [add, V3.mk.injEq]
        refine ⟨?_, ?_, ?_⟩ <;> ring
      have hp := (congrArg (projector p (wave3 δ k)) e3).trans e
      fin_cases c
      · refine (congrArg V3.x hp).trans ?_
        simp only [components, vec, Fin.zero_eta]
        ring
      · refine (congrArg V3.y hp).trans ?_
        simp only [components, vec, Fin.mk_one]
        ring
      · refine (congrArg V3.z hp).trans ?_
        simp only [components, vec, Fin.reduceFinMk]
        ring
    rw [hc, dissipation_boost]
    have hF' : phase δ U t k * velocity F c k = velocity F c k := by
      fin_cases c
      · exact phase_force hF t 0 k
      · exact phase_force hF t 1 k
      · exact phase_force hF t 2 k
    linear_combination hF'
  · rw [hvel]
    simp only [hb]
    refine (boost_deriv δ U 0 (h.eqb t ht k hk)).congr_deriv ?_
    rw [advect_boost h0 δ U 0 t _ _ hk, dissipation_boost]
    have h2 : moving δ U ![U 0, U 1, U 2, 0] u t 2 k = phase δ U t k * u t 2 k + if k = 0 then (U 2 : ℂ) else 0 := rfl
    have hN2 : (N : ℂ) ^ 2 * (if k = 0 then (U 2 : ℂ) else 0) = 0 := by
      split_ifs
      · rw [pow_two, mul_assoc, ← Complex.ofReal_mul, hN]
        simp
      · simp
    rw [h2]
    linear_combination phase_force hF t 3 k + hN2

/-- C104, ns3d.strat and ns3d.bouss: the same, when the uniform velocity is perpendicular to the gradient of density. -/
theorem C104_ns3d_strat {n : Fin 3 → ℕ} (hn : ∀ d, 0 < n d) {S : Finset (Fin 3 → ℤ)} (hS : NoAlias n S) (h0 : (0 : Fin 3 → ℤ) ∈ S)
    (δ U : Fin 3 → ℝ) (f : Option ℝ) (hf : f.getD 0 * U 0 = 0 ∧ f.getD 0 * U 1 = 0) (N : ℝ) (hN : N * U 2 = 0) (p : Projection)
    (hU : Uniform δ p false U) {nu : Dissip.Nu} (hnu : Nu.Ok nu) {F : Fin 4 → Fld (Fin 3)}
    (hF : Admissible S δ p false (velocity F) ∧ RealField S (F 3)) (hFU : NotAlong δ U F) {u0 : Fin 4 → Fld (Fin 3)}
    (hu0 : Admissible S δ p false (velocity u0) ∧ RealField S (u0 3)) {T : ℝ} (hT : 0 ≤ T) :
    ∃ u : ℝ → Fin 4 → Fld (Fin 3), u 0 = u0 ∧ Flow3Strat S δ (f.getD 0) N p nu F T u ∧
      SimulationsConverge3d S δ nu (fun G => project3dStrat G δ p false) (forced F (tend3dStrat n S δ f N p false)) T u ∧
      SimulationsConverge3d S δ nu (fun G => project3dStrat G δ p false) (forced F (tend3dStrat n S δ f N p false)) T
        (moving δ U ![U 0, U 1, U 2, 0] u) := by
  obtain ⟨u, e0, hu, -, hc⟩ := C87_ns3d_strat hn hS δ f N p hnu hF hu0 hT
  have hm := flow4_moving h0 hf hN hU hFU hu
  obtain ⟨w, e1, -, hw, hcw⟩ := C87_ns3d_strat hn hS δ f N p hnu hF (hm.adm 0 ⟨le_rfl, hT⟩) hT
  have he : ∀ t ∈ Set.Icc 0 T, w t = moving δ U ![U 0, U 1, U 2, 0] u t := fun t ht => (hw _ rfl hm t ht).symm
  refine ⟨u, e0, hu, hc, ?_⟩
  intro G hG c hcm ps pa pb heap g1 g2 cfl
  have := hcw G hG c hcm ps pa pb heap g1 g2 cfl
  rw [he 0 ⟨le_rfl, hT⟩] at this
  exact converges_congr (fun t ht => by rw [he t ht]) this

/-! ### sw1l -/

theorem sw_moving {p : Sw1l.Par} {S : Finset (Fin 2 → ℤ)} (h0 : (0 : Fin 2 → ℤ) ∈ S) {U : Fin 2 → ℝ}
    (hf : p.f * U 0 = 0 ∧ p.f * U 1 = 0) {nu : Dissip.Nu} {F : Fin 3 → Fld (Fin 2)} (hF : NotAlong p.δ U F) {T : ℝ}
    {u : ℝ → Fin 3 → Fld (Fin 2)} (h : FlowSw p S nu F T u) : FlowSw p S nu F T (moving p.δ U ![U 0, U 1, 0] u) := by
  have e0 : ∀ t, moving p.δ U ![U 0, U 1, 0] u t 0 = boost p.δ U (U 0) t (u t 0) := fun t => rfl
  have e1 : ∀ t, moving p.δ U ![U 0, U 1, 0] u t 1 = boost p.δ U (U 1) t (u t 1) := fun t => rfl
  have e2 : ∀ t, moving p.δ U ![U 0, U 1, 0] u t 2 = boost p.δ U 0 t (u t 2) := fun t => rfl
  have ev : ∀ t, ![boost p.δ U (U 0) t (u t 0), boost p.δ U (U 1) t (u t 1)]
      = fun d => boost p.δ U (U d) t (![u t 0, u t 1] d) := fun t => by
    funext d
    fin_cases d <;> rfl
  have hz : ∀ (k : Fin 2 → ℤ) (c : ℝ), p.f * c = 0 → (p.f : ℂ) * (if k = 0 then (c : ℂ) else 0) = 0 := by
    intro k c hc
    split_ifs
    · rw [← Complex.ofReal_mul, hc, Complex.ofReal_zero]
    · ring
  have eb : ∀ (m : ℝ) t (a : Fld (Fin 2)) k, boost p.δ U m t a k = phase p.δ U t k * a k + if k = 0 then (m : ℂ) else 0 :=
    fun _ _ _ _ => rfl
  refine ⟨fun t ht v => boost_real h0 _ _ _ t (h.real t ht v), fun t ht k hk => ?_, fun t ht k hk => ?_, fun t ht k hk => ?_⟩
  · simp only [e0, e1, e2, ev]
    refine (boost_deriv p.δ U (U 0) (h.eqx t ht k hk)).congr_deriv ?_
    rw [advect_boost h0 p.δ U _ t _ _ hk, dissipation_boost, pd_boost, eb (U 1)]
    linear_combination phase_force hF t 0 k - hz k _ hf.2
  · simp only [e0, e1, e2, ev]
    refine (boost_deriv p.δ U (U 1) (h.eqy t ht k hk)).congr_deriv ?_
    rw [advect_boost h0 p.δ U _ t _ _ hk, dissipation_boost, pd_boost, eb (U 0)]
    linear_combination phase_force hF t 1 k + hz k _ hf.1
  · simp only [e0, e1, e2]
    refine (boost_deriv p.δ U 0 (h.eqeta t ht k hk)).congr_deriv ?_
    have ex : ∀ d, pd p.δ d (exactProduct S (boost p.δ U 0 t (u t 2)) (boost p.δ U (U d) t (u t (Fin.castSucc d)))) k
        = phase p.δ U t k * (pd p.δ d (exactProduct S (u t 2) (u t (Fin.castSucc d))) k
          + Complex.I * ((p.δ d * k d * U d : ℝ) : ℂ) * u t 2 k) := by
      intro d
      have : boost p.δ U 0 t (u t 2) = fun q => phase p.δ U t q * u t 2 q := by
        funext q
        simp [boost]
      simp only [pd]
      rw [exact_comm, this, exact_boost h0 p.δ U _ t _ _ hk, exact_comm]
      push_cast
      ring
    have x0 := ex 0
    have x1 := ex 1
    simp only [Fin.castSucc_zero, Fin.castSucc_one] at x0 x1
    rw [dissipation_boost, pd_boost, pd_boost, x0, x1]
    have ea : (along p.δ U k : ℂ) = ((p.δ 0 * k 0 * U 0 : ℝ) : ℂ) + ((p.δ 1 * k 1 * U 1 : ℝ) : ℂ) := by
      rw [along, Fin.sum_univ_two]
      push_cast
      ring
    rw [ea]
    linear_combination phase_force hF t 2 k

/-- C104, sw1l without rotation: as long as the solution exists, the simulations with a uniform velocity added to the initial velocity
converge to the flow without it, translated, plus the uniform velocity. -/
theorem C104_sw1l {n : Fin 2 → ℕ} {p : Sw1l.Par} {S : Finset (Fin 2 → ℤ)} (hn : ∀ d, 0 < n d) (hS : NoAlias n S)
    (h0 : (0 : Fin 2 → ℤ) ∈ S) {U : Fin 2 → ℝ} (hf : p.f * U 0 = 0 ∧ p.f * U 1 = 0) {nu : Dissip.Nu} (hnu : Nu.Ok nu)
    {F : Fin 3 → Fld (Fin 2)} (hF : ∀ v, RealField S (F v)) (hFU : NotAlong p.δ U F) {T : ℝ} (hT : 0 ≤ T)
    {u : ℝ → Fin 3 → Fld (Fin 2)} (hu : FlowSw p S nu F T u) :
    SimulationsConverge S p.δ nu (forced F (tendSw1l p n S)) T u ∧
      SimulationsConverge S p.δ nu (forced F (tendSw1l p n S)) T (moving p.δ U ![U 0, U 1, 0] u) :=
  ⟨(C87_sw1l hn hS hnu hF hT hu).2, (C87_sw1l hn hS hnu hF hT (sw_moving h0 hf hFU hu)).2⟩

end

end Verif.Galilean
