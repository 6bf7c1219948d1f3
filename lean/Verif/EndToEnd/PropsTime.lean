import Verif.EndToEnd.LemmasTime
import Verif.EndToEnd.Props

/-!
# C87: the simulations give the solution of the documented equations, with forces which depend on the time
-/

set_option linter.unusedSectionVars false

namespace Verif.EndToEnd

open Verif.Fourier Verif.Vectors Verif.Energy Verif.Galerkin Verif.Schemes Verif.Convergence Finset

noncomputable section

/-- C87, ns2d with a force which depends on the time (a given smooth function): one and only one solution, and all the simulations
converge to it, with the order 1 (the orders of RK2 and RK4 are lost because the force is computed once per time step:
`C83_forced_order_violated`). -/
theorem C87_ns2d_time_partial {n : Fin 2 → ℕ} (hn : ∀ d, 0 < n d) {S : Finset (Fin 2 → ℤ)} (hS : NoAlias n S) {δ : Fin 2 → ℝ} (hδ : ∀ d, δ d ≠ 0)
    (beta : ℝ) {nu : Dissip.Nu} (hnu : Nu.Ok nu) {F : ℝ → Fld (Fin 2)} (hFs : ∀ k, ContDiff ℝ 1 fun t => F t k) (hF : ∀ t, RealField S (F t)) {rot0 : Fld (Fin 2)} (h0 : RealField S rot0)
    {T : ℝ} (hT : 0 ≤ T) :
    ∃ rot : ℝ → Fld (Fin 2), rot 0 = rot0 ∧ Flow2Time S δ beta nu F T rot ∧
      (∀ rot', rot' 0 = rot0 → Flow2Time S δ beta nu F T rot' → ∀ t ∈ Set.Icc 0 T, rot' t = rot t) ∧
      SimulationsConvergeTime S δ nu (tend2d n S δ beta) (fun t (_ : Unit) => F t) T fun t _ => rot t := by
  have hsym := sym_of_real h0
  have htriad := SpectBudget.triad_of_noAlias hS h0.1
  have hiff := fun u : Unit → Fld (Fin 2) => realPart_iff hsym u
  obtain ⟨u, hu0, hQ, hder, hconv⟩ := end_to_end_time S δ hnu (tend := tend2d n S δ beta) (smooth_tend2d n S δ beta)
    (realPart S) (realPart_out S) (realPart_idem hsym) (fun u hu => tend2d_real hsym n δ beta hu) (fun u hu => realPart_fd hsym δ nu hu)
    (w := fun _ _ => 1) (fun _ _ => one_pos) (c := 0) le_rfl
    (fun u hu => by
      have := C38_enstrophy hn htriad hS.distinct δ beta (u ()) (((hiff u).1 hu).1 ())
      unfold rate at this
      simp only [univ_unique, sum_singleton, one_mul, zero_mul]
      exact this.le)
    (F := fun t _ => F t) (fun _ k => hFs k) (fun t => (hiff _).2 ⟨fun _ => (hF t).1, fun _ => (hF t).2⟩) (u0 := fun _ => rot0) ((hiff _).2 ⟨fun _ => h0.1, fun _ => h0.2⟩) hT
  have hfor : ∀ (t : ℝ) (a : Unit → Fld (Fin 2)) ux uy, Velocity2 S δ (a ()) ux uy → ∀ k ∈ S,
      tend2d n S δ beta a () k + F t k - dissipation δ nu (a ()) k
        = -advect S δ ![ux, uy] (a ()) k - beta * uy k - dissipation δ nu (a ()) k + F t k := by
    intro t a ux uy hv k hk
    rw [tend2d, C57_ns2d hn hS hδ beta hv hk]
    ring
  refine ⟨fun t => u t (), congrFun hu0 (), ⟨?_, ?_⟩, ?_, hconv⟩
  · intro t ht
    have := (hiff _).1 (hQ t ht)
    exact ⟨this.1 (), this.2 ()⟩
  · intro t ht ux uy hv k hk
    exact (hder t ht () k).congr_deriv (hfor t (u t) ux uy hv k hk)
  · intro rot' h0' hflow t ht
    have := end_unique_time S δ (smooth_tend2d n S δ beta) (F := fun t _ => F t) (fun _ k => hFs k) (nu := nu) (T := T) (u := fun t _ => rot' t) (u' := u)
      (fun t ht _ k hk => (hflow.real t ht).2 k hk) (fun t ht v k hk => ((hiff _).1 (hQ t ht)).2 v k hk)
      (fun t ht v k hk => (hflow.eq t ht _ _ (velocity2_ux2 hδ (rot' t)) k hk).congr_deriv
        (hfor t (fun _ => rot' t) _ _ (velocity2_ux2 hδ (rot' t)) k hk).symm)
      (fun t ht v k _ => hder t ht v k) (by rw [hu0, h0']) t ht
    exact congrFun this ()

/-- C87, ns2d.strat with forces which depend on the time. -/
theorem C87_ns2d_strat_time_partial {n : Fin 2 → ℕ} (hn : ∀ d, 0 < n d) {S : Finset (Fin 2 → ℤ)} (hS : NoAlias n S) {δ : Fin 2 → ℝ}
    (hδ : ∀ d, δ d ≠ 0) (N : ℝ) {nu : Dissip.Nu} (hnu : Nu.Ok nu) {F H : ℝ → Fld (Fin 2)}
    (hFs : ∀ k, ContDiff ℝ 1 fun t => F t k) (hHs : ∀ k, ContDiff ℝ 1 fun t => H t k) (hF : ∀ t, RealField S (F t)) (hH : ∀ t, RealField S (H t))
    {rot0 b0 : Fld (Fin 2)} (h0 : RealField S rot0) (hb0 : RealField S b0) {T : ℝ} (hT : 0 ≤ T) :
    ∃ rot b : ℝ → Fld (Fin 2), rot 0 = rot0 ∧ b 0 = b0 ∧ FlowStratTime S δ N nu F H T rot b ∧
      (∀ rot' b', rot' 0 = rot0 → b' 0 = b0 → FlowStratTime S δ N nu F H T rot' b' → ∀ t ∈ Set.Icc 0 T, rot' t = rot t ∧ b' t = b t) ∧
      SimulationsConvergeTime S δ nu (tendStrat n S δ N) (fun t => ![F t, H t]) T fun t => ![rot t, b t] := by
  have hsym := sym_of_real h0
  have htriad := SpectBudget.triad_of_noAlias hS h0.1
  have hiff := fun u : Fin 2 → Fld (Fin 2) => realPart_iff hsym u
  have hFH : ∀ (v : Fin 2) k, ContDiff ℝ 1 fun t => ![F t, H t] v k := fun v k => by
    fin_cases v
    exacts [hFs k, hHs k]
  have hpair : ∀ {a b : Fld (Fin 2)}, RealField S a → RealField S b → realPart S ![a, b] = ![a, b] := fun {a b} ha hb =>
    (hiff _).2 ⟨fun v => by fin_cases v; exacts [ha.1, hb.1], fun v => by fin_cases v; exacts [ha.2, hb.2]⟩
  have hB : 0 ≤ stratBound S δ N := sum_nonneg fun _ _ => by positivity
  obtain ⟨u, hu0, hQ, hder, hconv⟩ := end_to_end_time S δ hnu (tend := tendStrat n S δ N) (smooth_tendStrat n S δ N)
    (realPart S) (realPart_out S) (realPart_idem hsym) (fun u hu => tendStrat_real hsym n δ N hu) (fun u hu => realPart_fd hsym δ nu hu)
    (w := fun _ _ => 1) (fun _ _ => one_pos) (c := stratBound S δ N) hB
    (fun u hu => by
      have := strat_energy hn htriad hS.distinct δ N (u 0) (u 1) (((hiff u).1 hu).1 0) (((hiff u).1 hu).1 1)
      unfold rate at this
      simp only [Fin.sum_univ_two, one_mul, ← sum_add_distrib] at this ⊢
      refine le_trans (le_of_eq ?_) (this.trans ?_)
      · simp [tendStrat]
      · linarith)
    (F := fun t => ![F t, H t]) hFH (fun t => hpair (hF t) (hH t)) (u0 := ![rot0, b0]) (hpair h0 hb0) hT
  have hfor : ∀ (t : ℝ) (a : Fin 2 → Fld (Fin 2)) ux uy, Velocity2 S δ (a 0) ux uy → ∀ k ∈ S,
      tendStrat n S δ N a 0 k + ![F t, H t] 0 k - dissipation δ nu (a 0) k
        = -advect S δ ![ux, uy] (a 0) k + pd δ 0 (a 1) k - dissipation δ nu (a 0) k + F t k ∧
      tendStrat n S δ N a 1 k + ![F t, H t] 1 k - dissipation δ nu (a 1) k
        = -advect S δ ![ux, uy] (a 1) k - N ^ 2 * uy k - dissipation δ nu (a 1) k + H t k := by
    intro t a ux uy hv k hk
    obtain ⟨h1, h2⟩ := C57_ns2d_strat hn hS hδ N (a 1) hv hk
    constructor
    · simp only [tendStrat, if_true, h1, Matrix.cons_val_zero]
      ring
    · simp only [tendStrat, one_ne_zero, if_false, h2, Matrix.cons_val_one]
      simp only [Matrix.cons_val_fin_one]
      ring
  have hu : u = fun t => ![u t 0, u t 1] := by
    funext t v
    fin_cases v <;> rfl
  refine ⟨fun t => u t 0, fun t => u t 1, congrFun hu0 0, congrFun hu0 1, ⟨?_, ?_⟩, ?_, hu ▸ hconv⟩
  · intro t ht
    have := (hiff _).1 (hQ t ht)
    exact ⟨⟨this.1 0, this.2 0⟩, this.1 1, this.2 1⟩
  · intro t ht ux uy hv k hk
    obtain ⟨h1, h2⟩ := hfor t (u t) ux uy hv k hk
    exact ⟨(hder t ht 0 k).congr_deriv h1, (hder t ht 1 k).congr_deriv h2⟩
  · intro rot' b' h0' hb0' hflow t ht
    have := end_unique_time S δ (smooth_tendStrat n S δ N) (F := fun t => ![F t, H t]) hFH (nu := nu) (T := T) (u := fun t => ![rot' t, b' t]) (u' := u)
      (fun t ht v k hk => by
        have := hflow.real t ht
        fin_cases v
        exacts [this.1.2 k hk, this.2.2 k hk])
      (fun t ht v k hk => ((hiff _).1 (hQ t ht)).2 v k hk)
      (fun t ht v k hk => by
        obtain ⟨e1, e2⟩ := hfor t ![rot' t, b' t] _ _ (velocity2_ux2 hδ (rot' t)) k hk
        obtain ⟨d1, d2⟩ := hflow.eq t ht _ _ (velocity2_ux2 hδ (rot' t)) k hk
        fin_cases v
        · exact d1.congr_deriv e1.symm
        · exact d2.congr_deriv e2.symm)
      (fun t ht v k _ => hder t ht v k) (by simp only [hu0, h0', hb0']) t ht
    exact ⟨congrFun this 0, congrFun this 1⟩

/-- C87, ns3d with a force which depends on the time (admissible: not changed by the projection). -/
theorem C87_ns3d_time_partial {n : Fin 3 → ℕ} (hn : ∀ d, 0 < n d) {S : Finset (Fin 3 → ℤ)} (hS : NoAlias n S) (δ : Fin 3 → ℝ) (f : Option ℝ)
    (p : Projection) (noVz : Bool) {nu : Dissip.Nu} (hnu : Nu.Ok nu) {F : ℝ → Fin 3 → Fld (Fin 3)}
    (hFs : ∀ c k, ContDiff ℝ 1 fun t => F t c k) (hF : ∀ t, Admissible S δ p noVz (F t))
    {v0 : Fin 3 → Fld (Fin 3)} (h0 : Admissible S δ p noVz v0) {T : ℝ} (hT : 0 ≤ T) :
    ∃ v : ℝ → Fin 3 → Fld (Fin 3), v 0 = v0 ∧ Flow3Time S δ (f.getD 0) p noVz nu F T v ∧
      (∀ v', v' 0 = v0 → Flow3Time S δ (f.getD 0) p noVz nu F T v' → ∀ t ∈ Set.Icc 0 T, v' t = v t) ∧
      SimulationsConvergeTime3d S δ nu (fun G => project3d G δ p noVz) (tend3d n S δ f p noVz) F T v := by
  have hsym := sym_of_real (h0.1 0)
  have hiff := admPart_iff hsym δ p noVz
  have hfd : ∀ (g : (Fin 3 → ℤ) → ℝ), (∀ k, g (-k) = g k) → ∀ u, Admissible S δ p noVz u →
      Admissible S δ p noVz fun c k => (g k : ℂ) * u c k := by
    intro g hg u hu
    refine ⟨fun c => ⟨(hu.1 c).1.mul g hg, fun k hk => by simp only [(hu.1 c).2 k hk, mul_zero]⟩, fun k hk => ?_⟩
    have := projV_linear p noVz (wave3 δ k) (g k) 0 (vec u k) (vec u k)
    simp only [zero_mul, add_zero, hu.2 k hk] at this
    exact this
  have hgneg : ∀ k, Dissip.fd nu (waveSq δ (-k)) = Dissip.fd nu (waveSq δ k) := fun k => by rw [waveSq_neg]
  obtain ⟨u, hu0, hQ, hder, hconv⟩ := end_to_end_time S δ hnu (tend := tend3d n S δ f p noVz) (smooth_tend3d n S δ f p noVz)
    (admPart S δ p noVz) (fun u c k hk => (admPart_adm hsym δ p noVz u).1 c |>.2 k hk)
    (fun u => (hiff _).2 (admPart_adm hsym δ p noVz u))
    (fun u hu => (hiff _).2 (tend3d_adm hsym n δ f p noVz fun c => ((hiff u).1 hu).1 c |>.1))
    (fun u hu => (hiff _).2 (hfd _ hgneg u ((hiff u).1 hu)))
    (w := fun _ _ => 1) (fun _ _ => one_pos) (c := 0) le_rfl
    (fun u hu => by
      have hu' := (hiff u).1 hu
      have := C37_energy n S δ f p noVz (vec u) ⟨(hu'.1 0).1, (hu'.1 1).1, (hu'.1 2).1⟩ fun k hk => by
        have h1 : (projectState p noVz (wave3 δ k) ⟨vec u k, none⟩).b = none := by
          simp only [projectState]
          split_ifs <;> rfl
        have h2 := (projectState_v p noVz (wave3 δ k) (vec u k) none).trans (hu'.2 k hk)
        cases h : projectState p noVz (wave3 δ k) ⟨vec u k, none⟩ with
        | mk a b =>
          rw [h] at h1 h2
          simp only at h1 h2
          rw [h1, h2]
      simp only [rateV, Vectors.inner, Complex.add_re, sum_add_distrib] at this
      simp only [Fin.sum_univ_three, one_mul, zero_mul]
      exact this.le)
    (F := F) hFs (fun t => (hiff _).2 (hF t)) (u0 := v0) ((hiff _).2 h0) hT
  have hfor : ∀ (t : ℝ) (a : Fin 3 → Fld (Fin 3)) c, ∀ k ∈ S, tend3d n S δ f p noVz a c k + F t c k - dissipation δ nu (a c) k
        = components (fun k => projV p noVz (wave3 δ k) (navierStokes S δ (f.getD 0) (vec a) k)) c k - dissipation δ nu (a c) k
          + F t c k := by
    intro t a c k hk
    have e := C57_ns3d hn hS δ f p noVz (vec a) hk
    have e' : ns3d n S δ f p noVz (vec a) k = projV p noVz (wave3 δ k) (navierStokes S δ (f.getD 0) (vec a) k) := e
    have e2 : tend3d n S δ f p noVz a c k
        = components (fun k => projV p noVz (wave3 δ k) (navierStokes S δ (f.getD 0) (vec a) k)) c k := by
      fin_cases c <;> simp only [tend3d, components, e']
    rw [e2]
    ring
  refine ⟨u, hu0, ⟨fun t ht => (hiff _).1 (hQ t ht), fun t ht c k hk => (hder t ht c k).congr_deriv (hfor t (u t) c k hk)⟩, ?_, ?_⟩
  · intro v' h0' hflow t ht
    exact end_unique_time S δ (smooth_tend3d n S δ f p noVz) hFs (nu := nu) (T := T) (u := v') (u' := u)
      (fun t ht c k hk => ((hflow.adm t ht).1 c).2 k hk) (fun t ht c k hk => (((hiff _).1 (hQ t ht)).1 c).2 k hk)
      (fun t ht c k hk => (hflow.eq t ht c k hk).congr_deriv (hfor t (v' t) c k hk).symm)
      (fun t ht v k _ => hder t ht v k) (by rw [hu0, h0']) t ht
  · refine converge3d_time hconv (admPart S δ p noVz) (fun u c k hk => (admPart_adm hsym δ p noVz u).1 c |>.2 k hk)
      (fun u hu => (hiff _).2 (tend3d_adm hsym n δ f p noVz fun c => ((hiff u).1 hu).1 c |>.1)) (fun t => (hiff _).2 (hF t))
      (fun g hg u hu => (hiff _).2 (hfd g hg u ((hiff u).1 hu))) ?_ (by rw [hu0]; exact (hiff _).2 h0)
    intro G hG a ha
    have ha' := (hiff _).1 ha
    have e : (fun k => (projectState p noVz (wave3 δ k) ⟨vec (fields G a) k, none⟩).v) = vec (fields G a) := by
      funext k
      rw [projectState_v]
      exact (projPart_iff δ p noVz _).1 ((admissible_iff hsym δ p noVz _).2 ha').2 k
    rw [project3d, e, components_vec, array_fields]

/-- A force which oscillates with the time. -/
example : ∃ rot : ℝ → Fld (Fin 2), rot 0 = (fun k => if k ∈ box then 1 else 0) ∧
    Flow2Time box (fun _ => 1) 1 ⟨1, 0, 1, 0⟩ (fun t k => if k ∈ box then (Real.cos t : ℂ) else 0) 10 rot := by
  obtain ⟨rot, h0, h, -⟩ := C87_ns2d_time_partial (n := fun _ => 4) (fun _ => by norm_num) box_noAlias (δ := fun _ => 1)
    (fun _ => one_ne_zero) 1 (nu := ⟨1, 0, 1, 0⟩) ⟨by norm_num, by norm_num, by norm_num, rfl⟩
    (F := fun t k => if k ∈ box then (Real.cos t : ℂ) else 0)
    (fun k => by
      split_ifs
      · exact Complex.ofRealCLM.contDiff.comp Real.contDiff_cos
      · exact contDiff_const)
    (fun t => ⟨fun k hk => ⟨box_neg hk, by simp only [hk, box_neg hk, if_true, Complex.conj_ofReal]⟩, fun k hk => by simp [hk]⟩)
    box_real (T := 10) (by norm_num)
  exact ⟨rot, h0, h⟩

end

end Verif.EndToEnd
