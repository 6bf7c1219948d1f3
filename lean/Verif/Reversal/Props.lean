import Verif.Reversal.LemmasRev

/-!
# C106: the simulations without viscosity are reversible

A simulation without viscosity is run during the time `T`. The sign of the velocity is changed, the rotation is reversed and the simulation
is run again during the same time. When the sign of the velocity is changed again, the state obtained is the initial state, with an error
which decreases as the time step to the power of the order of the scheme. The constant forces on the velocity (or on the vorticity) are
the same in the two runs, the forces on the buoyancy (or on the height of the surface) change their sign.
-/

namespace Verif.Reversal

open Verif.Fourier Verif.Vectors Verif.Energy Verif.Galerkin Verif.Schemes Verif.EndToEnd Verif.Convergence Finset

noncomputable section

/-- C106, ns2d: for every real initial vorticity, every force on the vorticity and every duration, with `-beta` for the second run. -/
theorem C106_ns2d {n : Fin 2 → ℕ} (hn : ∀ d, 0 < n d) {S : Finset (Fin 2 → ℤ)} (hS : NoAlias n S) {δ : Fin 2 → ℝ} (hδ : ∀ d, δ d ≠ 0)
    (beta : ℝ) {F : Fld (Fin 2)} (hF : RealField S F) {rot0 : Fld (Fin 2)} (h0 : RealField S rot0) {T : ℝ} (hT : 0 ≤ T) :
    SimulationsReturn S δ (fun _ => -1) (forced (fun _ : Unit => F) (tend2d n S δ beta)) (forced (fun _ => F) (tend2d n S δ (-beta))) T
      fun _ => rot0 := by
  obtain ⟨rot, hr0, hflow, -⟩ := C87_ns2d hn hS hδ beta inviscid_ok hF h0 hT
  have hout : ∀ (beta : ℝ) (u : Unit → Fld (Fin 2)) v k, k ∉ S → tend2d n S δ beta u v k = 0 := fun beta u v k hk => by
    simp [tend2d, ns2d, hk]
  have := simulationsReturn (smooth_tend2d n S δ beta) (smooth_tend2d n S δ (-beta)) (hout _) (hout _) signs_one (rev2d hn hS δ beta)
    (F := fun _ => F) (F' := fun _ => F) (fun _ k hk => hF.2 k hk) (fun _ k => by simp) hT (u := fun t _ => rot t) (δ := δ)
    (fun t ht _ k hk => (hflow.real t ht).2 k hk)
    (fun t ht v k hk => (hflow.eq t ht _ _ (velocity2_ux2 hδ (rot t)) k hk).congr_deriv (by
      rw [forced, tend2d, C57_ns2d hn hS hδ beta (velocity2_ux2 hδ (rot t)) hk]
      ring))
  simpa only [hr0] using this

/-- C106, ns2d.strat: the sign of the buoyancy does not change. -/
theorem C106_ns2d_strat {n : Fin 2 → ℕ} (hn : ∀ d, 0 < n d) {S : Finset (Fin 2 → ℤ)} (hS : NoAlias n S) {δ : Fin 2 → ℝ}
    (hδ : ∀ d, δ d ≠ 0) (N : ℝ) {F H : Fld (Fin 2)} (hF : RealField S F) (hH : RealField S H) {rot0 b0 : Fld (Fin 2)}
    (h0 : RealField S rot0) (hb0 : RealField S b0) {T : ℝ} (hT : 0 ≤ T) :
    SimulationsReturn S δ ![-1, 1] (forced ![F, H] (tendStrat n S δ N)) (forced ![F, fun k => -H k] (tendStrat n S δ N)) T ![rot0, b0] := by
  obtain ⟨rot, b, hr0, hb, hflow, -⟩ := C87_ns2d_strat hn hS hδ N inviscid_ok hF hH h0 hb0 hT
  have hout : ∀ (u : Fin 2 → Fld (Fin 2)) v k, k ∉ S → tendStrat n S δ N u v k = 0 := fun u v k hk => by
    fin_cases v <;> simp [tendStrat, ns2dStrat, hk]
  have := simulationsReturn (smooth_tendStrat n S δ N) (smooth_tendStrat n S δ N) hout hout signs2 (revStrat hn hS δ N)
    (F := ![F, H]) (F' := ![F, fun k => -H k]) (fun v k hk => by
      fin_cases v
      exacts [hF.2 k hk, hH.2 k hk]) (fun v k => by fin_cases v <;> simp) hT (u := fun t => ![rot t, b t]) (δ := δ)
    (fun t ht v k hk => by
      have := hflow.real t ht
      fin_cases v
      exacts [this.1.2 k hk, this.2.2 k hk])
    (fun t ht v k hk => by
      obtain ⟨h1, h2⟩ := C57_ns2d_strat hn hS hδ N (b t) (velocity2_ux2 hδ (rot t)) hk
      obtain ⟨d1, d2⟩ := hflow.eq t ht _ _ (velocity2_ux2 hδ (rot t)) k hk
      fin_cases v
      · refine d1.congr_deriv ?_
        simp only [forced, tendStrat, Fin.zero_eta, Matrix.cons_val_zero, Matrix.cons_val_one, if_true, h1]
        ring
      · refine d2.congr_deriv ?_
        show _ = tendStrat n S δ N ![rot t, b t] 1 k + H k - dissipation δ inviscid (b t) k
        simp only [tendStrat, Matrix.cons_val_zero, Matrix.cons_val_one, one_ne_zero, if_false, h2]
        ring)
  simpa only [hr0, hb] using this

/-- C106, ns2d.bouss. -/
theorem C106_ns2d_bouss {n : Fin 2 → ℕ} (hn : ∀ d, 0 < n d) {S : Finset (Fin 2 → ℤ)} (hS : NoAlias n S) {δ : Fin 2 → ℝ}
    (hδ : ∀ d, δ d ≠ 0) {F H : Fld (Fin 2)} (hF : RealField S F) (hH : RealField S H) {rot0 b0 : Fld (Fin 2)}
    (h0 : RealField S rot0) (hb0 : RealField S b0) {T : ℝ} (hT : 0 ≤ T) :
    SimulationsReturn S δ ![-1, 1] (forced ![F, H] (tendBouss n S δ)) (forced ![F, fun k => -H k] (tendBouss n S δ)) T ![rot0, b0] := by
  rw [tendBouss_eq hn hS.distinct]
  exact C106_ns2d_strat hn hS hδ 0 hF hH h0 hb0 hT

/-- C106, ns3d: with and without rotation (reversed for the second run), whatever the projection. -/
theorem C106_ns3d {n : Fin 3 → ℕ} (hn : ∀ d, 0 < n d) {S : Finset (Fin 3 → ℤ)} (hS : NoAlias n S) (δ : Fin 3 → ℝ) (f : Option ℝ)
    (p : Projection) (noVz : Bool) {F : Fin 3 → Fld (Fin 3)} (hF : Admissible S δ p noVz F) {v0 : Fin 3 → Fld (Fin 3)}
    (h0 : Admissible S δ p noVz v0) {T : ℝ} (hT : 0 ≤ T) :
    SimulationsReturn3d S δ (fun _ => -1) (fun G => project3d G δ p noVz) (forced F (tend3d n S δ f p noVz))
      (forced F (tend3d n S δ (f.map (-·)) p noVz)) T v0 := by
  obtain ⟨v, hv0, hflow, -⟩ := C87_ns3d hn hS δ f p noVz inviscid_ok hF h0 hT
  have hsym := sym_of_real (h0.1 0)
  have hiff := admPart_iff hsym δ p noVz
  have hfd : ∀ (g : (Fin 3 → ℤ) → ℝ), (∀ k, g (-k) = g k) → ∀ u, Admissible S δ p noVz u →
      Admissible S δ p noVz fun c k => (g k : ℂ) * u c k := by
    intro g hg u hu
    refine ⟨fun c => ⟨(hu.1 c).1.mul g hg, fun k hk => by simp only [(hu.1 c).2 k hk, mul_zero]⟩, fun k hk => ?_⟩
    have := projV_linear p noVz (wave3 δ k) (g k) 0 (vec u k) (vec u k)
    simp only [zero_mul, add_zero, hu.2 k hk] at this
    exact this
  have hout : ∀ (f : Option ℝ) (u : Fin 3 → Fld (Fin 3)) c k, k ∉ S → tend3d n S δ f p noVz u c k = 0 := fun f u c k hk => by
    fin_cases c <;> simp [tend3d, components, ns3d, hk]
  have key := simulationsReturn (smooth_tend3d n S δ f p noVz) (smooth_tend3d n S δ (f.map (-·)) p noVz) (hout _) (hout _) signs_one
    (rev3d hn hS δ f p noVz) (F := F) (F' := F) (fun c k hk => (hF.1 c).2 k hk) (fun _ k => by simp) hT (u := v) (δ := δ)
    (fun t ht c k hk => ((hflow.adm t ht).1 c).2 k hk)
    (fun t ht c k hk => (hflow.eq t ht c k hk).congr_deriv (by
      have e' : ns3d n S δ f p noVz (vec (v t)) k = projV p noVz (wave3 δ k) (navierStokes S δ (f.getD 0) (vec (v t)) k) :=
        C57_ns3d hn hS δ f p noVz (vec (v t)) hk
      have e2 : tend3d n S δ f p noVz (v t) c k
          = components (fun k => projV p noVz (wave3 δ k) (navierStokes S δ (f.getD 0) (vec (v t)) k)) c k := by
        fin_cases c <;> simp only [tend3d, components, e']
      rw [forced, e2]
      ring))
  rw [hv0] at key
  have ht : ∀ f : Option ℝ, ∀ u, admPart S δ p noVz u = u →
      admPart S δ p noVz (forced F (tend3d n S δ f p noVz) u) = forced F (tend3d n S δ f p noVz) u := by
    intro f u hu
    have e : forced F (tend3d n S δ f p noVz) u = tend3d n S δ f p noVz u + F := rfl
    rw [e, map_add, (hiff _).2 (tend3d_adm hsym n δ f p noVz fun c => ((hiff u).1 hu).1 c |>.1), (hiff F).2 hF]
  refine return3d key (admPart S δ p noVz) (fun u c k hk => (admPart_adm hsym δ p noVz u).1 c |>.2 k hk) (ht _) (ht _)
    (fun g hg u hu => (hiff _).2 (hfd g hg u ((hiff u).1 hu)))
    (fun u hu => (hiff _).2 (hfd (fun _ => -1) (fun _ => rfl) u ((hiff u).1 hu))) ?_ ((hiff _).2 h0)
  intro G hG a ha
  have ha' := (hiff _).1 ha
  have e : (fun k => (projectState p noVz (wave3 δ k) ⟨vec (fields G a) k, none⟩).v) = vec (fields G a) := by
    funext k
    rw [projectState_v]
    exact (projPart_iff δ p noVz _).1 ((admissible_iff hsym δ p noVz _).2 ha').2 k
  rw [project3d, e, components_vec, array_fields]

/-- C106, ns3d.strat (and ns3d.bouss, `N = 0`): the sign of the buoyancy does not change. -/
theorem C106_ns3d_strat {n : Fin 3 → ℕ} (hn : ∀ d, 0 < n d) {S : Finset (Fin 3 → ℤ)} (hS : NoAlias n S) (δ : Fin 3 → ℝ) (f : Option ℝ)
    (N : ℝ) (p : Projection) {F : Fin 4 → Fld (Fin 3)} (hF : Admissible S δ p false (velocity F) ∧ RealField S (F 3))
    {u0 : Fin 4 → Fld (Fin 3)} (h0 : Admissible S δ p false (velocity u0) ∧ RealField S (u0 3)) {T : ℝ} (hT : 0 ≤ T) :
    SimulationsReturn3d S δ ![-1, -1, -1, 1] (fun G => project3dStrat G δ p false) (forced F (tend3dStrat n S δ f N p false))
      (forced ![F 0, F 1, F 2, fun k => -F 3 k] (tend3dStrat n S δ (f.map (-·)) N p false)) T u0 := by
  obtain ⟨u, hu0, hflow, -⟩ := C87_ns3d_strat hn hS δ f N p inviscid_ok hF h0 hT
  have hsym := sym_of_real h0.2
  have hiff := admPart4_iff hsym δ p
  have hdiv : ∀ {a : Fin 4 → Fld (Fin 3)}, Adm4 S δ p a → ∀ k ∈ S, kdot (wave3 δ k) (vec (velocity a) k) = 0 := by
    intro a ha k hk
    rw [← ha.1.2 k hk, projV_false]
    cases p
    · exact C28_orthogonal _ _
    · exact (C29_parts_divergence_free _ _).2
    · exact (C29_parts_divergence_free _ _).1
  have hout : ∀ (f : Option ℝ) (u : Fin 4 → Fld (Fin 3)) c k, k ∉ S → tend3dStrat n S δ f N p false u c k = 0 := fun f u c k hk => by
    fin_cases c <;> simp [tend3dStrat, components4, ns3dStrat, hk]
  have hflip : ∀ {a : Fin 4 → Fld (Fin 3)}, Adm4 S δ p a → Adm4 S δ p (flip ![-1, -1, -1, 1] a) := by
    intro a ha
    have h := adm4_mul ha (fun _ => -1) fun _ => rfl
    refine ⟨?_, ?_⟩
    · have e : velocity (flip ![-1, -1, -1, 1] a) = velocity fun c k => ((-1 : ℝ) : ℂ) * a c k := by
        funext c k
        fin_cases c <;> simp [velocity, flip]
      rw [e]
      exact h.1
    · have e : flip ![-1, -1, -1, 1] a 3 = a 3 := by
        funext k
        simp [flip]
      rw [e]
      exact ha.2
  have hflip' : ∀ {a : Fin 4 → Fld (Fin 3)}, Adm4 S δ p a → Adm4 S δ p ![a 0, a 1, a 2, fun k => -a 3 k] := by
    intro a ha
    have h := adm4_mul ha (fun _ => -1) fun _ => rfl
    refine ⟨ha.1, ?_⟩
    have e : (![a 0, a 1, a 2, fun k => -a 3 k] : Fin 4 → Fld (Fin 3)) 3 = fun k => ((-1 : ℝ) : ℂ) * a 3 k := by
      funext k
      simp
    rw [e]
    exact h.2
  have key := simulationsReturn (smooth_tend4 n S δ f N p) (smooth_tend4 n S δ (f.map (-·)) N p) (hout _) (hout _) signs4
    (rev3dStrat hn hS δ f N p false) (F := F) (F' := ![F 0, F 1, F 2, fun k => -F 3 k]) (fun c k hk => adm4_out hF c k hk)
    (fun v k => by fin_cases v <;> simp) hT (u := u) (δ := δ)
    (fun t ht c k hk => adm4_out (hflow.adm t ht) c k hk)
    (fun t ht c k hk => by
      obtain ⟨e1, e2⟩ := C57_ns3d_strat hn hS δ f N p (vec (velocity (u t))) (u t 3) (hdiv (hflow.adm t ht)) hk
      have hc : comp (vec (velocity (u t))) = velocity (u t) := by
        funext c
        fin_cases c <;> rfl
      rw [hc] at e2
      have hv := fun c => hflow.eqv t ht c k hk
      fin_cases c
      · refine (hv 0).congr_deriv ?_
        show (projector p (wave3 δ k) (add (navierStokes S δ (f.getD 0) (vec (velocity (u t))) k) ⟨0, 0, u t 3 k⟩)).x - _ + F 0 k
          = (ns3dStrat n S δ f N p false (vec (velocity (u t))) (u t 3) k).v.x + F 0 k - _
        rw [e1]
        simp only [velocity, Matrix.cons_val_zero, Fin.zero_eta]
        ring
      · refine (hv 1).congr_deriv ?_
        show (projector p (wave3 δ k) (add (navierStokes S δ (f.getD 0) (vec (velocity (u t))) k) ⟨0, 0, u t 3 k⟩)).y - _ + F 1 k
          = (ns3dStrat n S δ f N p false (vec (velocity (u t))) (u t 3) k).v.y + F 1 k - _
        rw [e1]
        show _ - dissipation δ inviscid (u t 1) k + F 1 k = _ + F 1 k - dissipation δ inviscid (u t 1) k
        ring
      · refine (hv 2).congr_deriv ?_
        show (projector p (wave3 δ k) (add (navierStokes S δ (f.getD 0) (vec (velocity (u t))) k) ⟨0, 0, u t 3 k⟩)).z - _ + F 2 k
          = (ns3dStrat n S δ f N p false (vec (velocity (u t))) (u t 3) k).v.z + F 2 k - _
        rw [e1]
        show _ - dissipation δ inviscid (u t 2) k + F 2 k = _ + F 2 k - dissipation δ inviscid (u t 2) k
        ring
      · refine (hflow.eqb t ht k hk).congr_deriv ?_
        show _ = (ns3dStrat n S δ f N p false (vec (velocity (u t))) (u t 3) k).b.getD 0 + F 3 k - dissipation δ inviscid (u t 3) k
        rw [e2, Option.getD_some]
        show _ = -advect S δ (velocity (u t)) (u t 3) k - N ^ 2 * u t 2 k + F 3 k - dissipation δ inviscid (u t 3) k
        ring)
  rw [hu0] at key
  have ht : ∀ (f : Option ℝ) {F : Fin 4 → Fld (Fin 3)}, Adm4 S δ p F → ∀ u, admPart4 S δ p u = u →
      admPart4 S δ p (forced F (tend3dStrat n S δ f N p false) u) = forced F (tend3dStrat n S δ f N p false) u := by
    intro f F hF u hu
    have e : forced F (tend3dStrat n S δ f N p false) u = tend3dStrat n S δ f N p false u + F := rfl
    rw [e, map_add, (hiff _).2 (tend4_adm hsym n δ f N p ((hiff u).1 hu)), (hiff F).2 hF]
  refine return3d key (admPart4 S δ p) (fun u c k hk => adm4_out (admPart4_adm hsym δ p u) c k hk) (ht _ hF) (ht _ (hflip' hF))
    (fun g hg u hu => (hiff _).2 (adm4_mul ((hiff u).1 hu) g hg)) (fun u hu => (hiff _).2 (hflip ((hiff u).1 hu))) ?_ ((hiff _).2 h0)
  intro G hG a ha
  have ha' := (hiff _).1 ha
  have e : (fun k => projectState p false (wave3 δ k) (modeState (fields G a) k)) = modeState (fields G a) := by
    funext k
    have h1 := (projPart_iff δ p false _).1 ((admissible_iff hsym δ p false _).2 ha'.1).2 k
    rw [projV_false] at h1
    simp only [projectState, Bool.false_eq_true, false_and, if_false, modeState]
    rw [ModeState.mk.injEq]
    exact ⟨h1, rfl⟩
  have e2 : components4 (modeState (fields G a)) = fields G a := by
    funext c k
    fin_cases c <;> rfl
  rw [project3dStrat, e, e2, array_fields]

/-- C106, sw1l: as long as the truncated shallow-water equations have a solution; the sign of the height of the surface does not change. -/
theorem C106_sw1l {p : Sw1l.Par} {n : Fin 2 → ℕ} (hn : ∀ d, 0 < n d) {S : Finset (Fin 2 → ℤ)} (hS : NoAlias n S)
    {F : Fin 3 → Fld (Fin 2)} (hF : ∀ v, RealField S (F v)) {T : ℝ} (hT : 0 ≤ T) {u : ℝ → Fin 3 → Fld (Fin 2)}
    (hu : FlowSw p S inviscid F T u) :
    SimulationsReturn S p.δ ![-1, -1, 1] (forced F (tendSw1l p n S))
      (forced ![F 0, F 1, fun k => -F 2 k] (tendSw1l (oppositeRotation p) n S)) T (u 0) :=
  simulationsReturn (smooth_sw1l p n S) (smooth_sw1l (oppositeRotation p) n S) (fun u v k hk => sw1l_out u v k hk)
    (fun u v k hk => sw1l_out u v k hk) signs3 (revSw1l hn hS p) (F := F) (fun v k hk => (hF v).2 k hk)
    (fun v k => by fin_cases v <;> simp) hT (fun t ht v k hk => (hu.real t ht v).2 k hk) (fun t ht v k hk => hu.toEq hn hS t ht v k hk)

/-- C106, sw1l.modified: for every real initial state, every duration and all constant forces. -/
theorem C106_sw1l_modified {p : Sw1l.Par} (h : p.Ok) {n : Fin 2 → ℕ} (hn : ∀ d, 0 < n d) {S : Finset (Fin 2 → ℤ)} (hS : NoAlias n S)
    {F : Fin 3 → Fld (Fin 2)} (hF : ∀ v, RealField S (F v)) {u0 : Fin 3 → Fld (Fin 2)} (h0 : ∀ v, RealField S (u0 v)) {T : ℝ}
    (hT : 0 ≤ T) :
    SimulationsReturn S p.δ ![-1, -1, 1] (forced F (tendModified p n S))
      (forced ![F 0, F 1, fun k => -F 2 k] (tendModified (oppositeRotation p) n S)) T u0 := by
  obtain ⟨u, hu0, hflow, -⟩ := C87_sw1l_modified h hn hS inviscid_ok hF h0 hT
  have hv := fun a : Fin 3 → Fld (Fin 2) => (velocity2_ux2 h.1 _ : RotationalPart S p.δ (a 0) (a 1) _ _)
  have key := simulationsReturn (smooth_modified p n S) (smooth_modified (oppositeRotation p) n S) (fun u v k hk => modified_out u v k hk)
    (fun u v k hk => modified_out u v k hk) signs3 (revModified hn hS h.1) (F := F) (F' := ![F 0, F 1, fun k => -F 2 k])
    (fun v k hk => (hF v).2 k hk) (fun v k => by fin_cases v <;> simp) hT (δ := p.δ) (fun t ht v k hk => (hflow.real t ht v).2 k hk)
    (fun t ht v k hk => by
      obtain ⟨e1, e2, e3⟩ := modified_eqs hn hS h.1 inviscid F (u t) (hv (u t)) hk
      fin_cases v
      · exact (hflow.eqx t ht _ _ (hv (u t)) k hk).congr_deriv e1.symm
      · exact (hflow.eqy t ht _ _ (hv (u t)) k hk).congr_deriv e2.symm
      · exact (hflow.eqeta t ht _ _ (hv (u t)) k hk).congr_deriv e3.symm)
  rwa [hu0] at key

/-- C106, plate2d with `coef_dealiasing <= 1/2`: the sign of the velocity `w` is changed, not the one of the displacement `z`. -/
theorem C106_plate2d {n : Fin 2 → ℕ} {S H : Finset (Fin 2 → ℤ)} {δ : Fin 2 → ℝ} (hn : ∀ d, 0 < n d)
    (hS4 : ∀ k ∈ S, ∀ d, 4 * |k d| < n d) (hH2 : ∀ k ∈ H, ∀ d, 2 * |k d| ≤ n d) (hSH : ∀ p ∈ S, ∀ q ∈ S, p + q ∈ H)
    (hδ : ∀ d, δ d ≠ 0) {F : Fld (Fin 2)} (hF : RealField S F) {w0 z0 : Fld (Fin 2)} (hw0 : RealField S w0) (hz0 : RealField S z0) {T : ℝ}
    (hT : 0 ≤ T) :
    SimulationsReturnPlate S δ ![-1, 1] (forced ![F, 0] (tendPlate n S H δ)) (forced ![F, 0] (tendPlate n S H δ)) T ![w0, z0] := by
  obtain ⟨w, z, hw, hz, hflow, -⟩ := C87_plate2d hn hS4 hH2 hSH hδ inviscid_ok hF hw0 hz0 hT
  rw [tendPlate_sums hn hS4 hH2 hSH hδ]
  intro G hG c hc ps pa pb ps' pa' pb' heap heap' g1 g2 g1' g2' cfl
  have hsm := smooth_forced (smooth_plate n S (sums S) δ) ![F, 0]
  have hout : ∀ (u : Fin 2 → Fld (Fin 2)) v k, k ∉ S → forced ![F, 0] (tendPlate n S (sums S) δ) u v k = 0 :=
    forced_out (fun u v k hk => plate_out u v k hk) fun v k hk => by
      fin_cases v
      exacts [hF.2 k hk, rfl]
  have hrev : ∀ u v k, forced ![F, 0] (tendPlate n S (sums S) δ) (flip ![-1, 1] u) v k
      = -((![-1, 1] v : ℝ) : ℂ) * forced ![F, 0] (tendPlate n S (sums S) δ) u v k := by
    intro u v k
    have := forced_rev (revPlate n S (sums S) δ) ![F, 0] u v k
    have e : (fun v k => -((![-1, 1] v : ℝ) : ℂ) * (![F, 0] : Fin 2 → Fld (Fin 2)) v k) = ![F, 0] := by
      funext v k
      fin_cases v <;> simp
    rwa [e] at this
  have := returns_of_solution (freq := freqPlate δ inviscid) (fun v k => freqPlate_inviscid δ v k) hsm hsm hout hout signs2 hrev hT
    (u := fun t => ![w t, z t])
    (fun t ht v k hk => by
      have := hflow.real t ht
      fin_cases v
      exacts [this.1.2 k hk, this.2.2 k hk])
    (fun t ht v k hk => by
      obtain ⟨chi, hchi⟩ := airy_exists hδ S (z t)
      obtain ⟨e1, e2⟩ := C57_plate2d_partial hn hS4 (sums_small hS4)
        (fun p hp q hq => mem_image.2 ⟨(p, q), mem_product.2 ⟨hp, hq⟩, rfl⟩) hδ (w := w t) hchi hk
      rw [freqPlate_inviscid, zero_mul, sub_zero]
      fin_cases v
      · refine (hflow.eqw t ht chi hchi k hk).congr_deriv ?_
        rw [dissipation_inviscid]
        simp only [forced, tendPlate, Fin.zero_eta, Matrix.cons_val_zero, Matrix.cons_val_one, if_true, e1]
        ring
      · refine (hflow.eqz t ht k hk).congr_deriv ?_
        simp [forced, tendPlate, e2]) hG hc ps pa pb ps' pa' pb' heap heap' g1 g2 g1' g2' cfl
  simpa only [hw, hz] using this

/-- C106, burgers1d and burgers1d.skew_sym (the truncated equation, which has no shock): the two runs can be made with different
solvers. -/
theorem C106_burgers (skew skew' : Bool) {nx : ℕ} (hn : 1 < nx) {S : Finset (Unit → ℤ)} (h3 : ∀ k ∈ S, 3 * |k ()| < nx) (δ : ℝ)
    {F : Fld Unit} (hF : RealField S F) {u0 : Fld Unit} (h0 : RealField S u0) {T : ℝ} (hT : 0 ≤ T) :
    SimulationsReturn S (fun _ => δ) (fun _ => -1) (forced (fun _ : Unit => F) (tendBurgers skew nx S δ))
      (forced (fun _ => F) (tendBurgers skew' nx S δ)) T fun _ => u0 := by
  obtain ⟨u, hu0, hflow, -⟩ := C87_burgers false hn h3 δ inviscid_ok hF h0 hT
  have hsk : ∀ s, tendBurgers s nx S δ = tendBurgers false nx S δ := fun s => by
    cases s
    · rfl
    · exact tendBurgers_eq hn h3 δ
  have hout : ∀ (u : Unit → Fld Unit) v k, k ∉ S → tendBurgers false nx S δ u v k = 0 := fun u v k hk => by
    have : ¬ Burgers.kept nx S k := fun h => hk h.1
    simp [tendBurgers, Burgers.convective, this]
  rw [hsk, hsk skew']
  have := simulationsReturn (smooth_burgers nx S δ) (smooth_burgers nx S δ) hout hout signs_one (revBurgers hn h3 δ)
    (F := fun _ => F) (F' := fun _ => F) (fun _ k hk => hF.2 k hk) (fun _ k => by simp) hT (u := fun t _ => u t) (δ := fun _ => δ)
    (fun t ht _ k hk => (hflow.real t ht).2 k hk)
    (fun t ht v k hk => (hflow.eq t ht k hk).congr_deriv (by
      have := (C57_burgers (by omega) (burgers_noAlias h3) δ (u t) (burgers_kept hn h3 hk)).1
      simp only [forced, tendBurgers, Bool.false_eq_true, if_false, this]
      ring))
  simpa only [hu0] using this

/-- A forced flow on a beta plane which meets the hypotheses. -/
example : SimulationsReturn EndToEnd.box (fun _ => 1) (fun _ => -1)
    (forced (fun _ : Unit => fun k => if k ∈ EndToEnd.box then 1 else 0) (tend2d (fun _ => 4) EndToEnd.box (fun _ => 1) 1))
    (forced (fun _ => fun k => if k ∈ EndToEnd.box then 1 else 0) (tend2d (fun _ => 4) EndToEnd.box (fun _ => 1) (-1))) 10
    fun _ => fun k => if k ∈ EndToEnd.box then 1 else 0 :=
  C106_ns2d (fun _ => by norm_num) box_noAlias (fun _ => one_ne_zero) 1 box_real box_real (by norm_num)

/-- The conclusion is about time steps which exist: a first run with `2 m` steps and a second one with `m` steps, whatever the simulations. -/
example {ι : Type*} [Fintype ι] {R : Arr ι → Arr ι} {there back : Arr ι → (ℕ → ℝ) → ℕ → Arr ι} {a : Arr ι}
    (hret : Returns 4 10 false R there back a) : ∃ C h0 : ℝ, 0 < h0 ∧ ∀ m : ℕ, 0 < m → 10 / (m : ℝ) ≤ h0 →
      ‖R (back (R (there a (fun _ => 10 / (2 * m)) (2 * m))) (fun _ => 10 / m) m) - a‖ ≤ C * (10 / m) ^ 4 := by
  obtain ⟨C, h0, hp, h⟩ := hret
  refine ⟨C, h0, hp, fun m hm hle => ?_⟩
  have hm' : (0 : ℝ) < m := by exact_mod_cast hm
  refine h (10 / m) _ _ hle (fun _ => ⟨by positivity, ?_⟩) (fun _ => ⟨by positivity, le_rfl⟩) (fun _ => ⟨fun _ => rfl, fun _ => rfl⟩) _ _ ?_ ?_
  · exact div_le_div_of_nonneg_left (by norm_num) hm' (by linarith)
  · simp [elapsed]
    field_simp
  · simp [elapsed]
    field_simp

/-- A rotating stratified flow in three dimensions: a vertical shear and a buoyancy. -/
example : SimulationsReturn3d EndToEnd.box (fun _ => 1) ![-1, -1, -1, 1] (fun G => project3dStrat G (fun _ => 1) .none false)
    (forced 0 (tend3dStrat (fun _ => 4) EndToEnd.box (fun _ => 1) (some 2) 3 .none false))
    (forced ![(0 : Fin 4 → Fld (Fin 3)) 0, (0 : Fin 4 → Fld (Fin 3)) 1, (0 : Fin 4 → Fld (Fin 3)) 2, fun k => -(0 : Fin 4 → Fld (Fin 3)) 3 k]
      (tend3dStrat (fun _ => 4) EndToEnd.box (fun _ => 1) ((some 2).map (-·)) 3 .none false)) 10
    ![fun k => if k ∈ EndToEnd.box ∧ k 0 = 0 ∧ k 1 = 0 then 1 else 0, fun _ => 0, fun _ => 0, fun k => if k ∈ EndToEnd.box then 1 else 0] := by
  have hz : Admissible EndToEnd.box (fun _ => 1) .none false (velocity (0 : Fin 4 → Fld (Fin 3))) ∧ RealField EndToEnd.box ((0 : Fin 4 → Fld (Fin 3)) 3) := by
    have hr : RealField EndToEnd.box (fun _ : Fin 3 → ℤ => (0 : ℂ)) :=
      ⟨fun k hk => ⟨box_neg hk, by simp⟩, fun _ _ => rfl⟩
    refine ⟨?_, hr⟩
    rw [C87_admissible_default]
    refine ⟨fun c => ?_, fun k hk => ?_⟩
    · fin_cases c <;> exact hr
    · simp [velocity, pd]
  refine C106_ns3d_strat (fun _ => by norm_num) box_noAlias _ _ _ _ hz ⟨?_, box_real⟩ (by norm_num)
  rw [C87_admissible_default]
  constructor
  · intro c
    fin_cases c
    · refine ⟨fun k hk => ⟨box_neg hk, ?_⟩, fun k hk => by simp [hk, velocity]⟩
      simp [hk, box_neg hk, apply_ite, velocity]
    · exact ⟨fun k hk => ⟨box_neg hk, by simp [velocity]⟩, fun k _ => rfl⟩
    · exact ⟨fun k hk => ⟨box_neg hk, by simp [velocity]⟩, fun k _ => rfl⟩
  · intro k hk
    by_cases h : k 0 = 0 <;> simp [pd, h, velocity]

end

end Verif.Reversal
