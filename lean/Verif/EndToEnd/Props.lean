import Verif.EndToEnd.LemmasProj
import Verif.Galerkin.Props

/-!
# C87: the simulations give the solution of the documented equations

Existence and uniqueness of the solution of the documented equations truncated to the modes kept, for all times, and convergence of
the simulations to it with the order of their scheme.
-/

set_option linter.unusedSectionVars false

namespace Verif.EndToEnd

open Verif.Fourier Verif.Vectors Verif.Energy Verif.Galerkin Verif.Schemes Verif.Convergence Finset

noncomputable section

theorem sym_of_real {D : Type*} {S : Finset (D → ℤ)} {a : Fld D} (h : RealField S a) : Sym S := fun k hk => (h.1 k hk).1

/-- C87, ns2d: for every initial vorticity (real, with the modes kept by the truncation), every constant force and every duration, the
documented equations have one and only one solution, and the simulations converge to it: at every time computed the error is smaller
than a constant times the largest time step to the power 1 (Euler), 2 (RK2, RK2_trapezoid) or 4 (RK4). -/
theorem C87_ns2d {n : Fin 2 → ℕ} (hn : ∀ d, 0 < n d) {S : Finset (Fin 2 → ℤ)} (hS : NoAlias n S) {δ : Fin 2 → ℝ} (hδ : ∀ d, δ d ≠ 0)
    (beta : ℝ) {nu : Dissip.Nu} (hnu : Nu.Ok nu) {F : Fld (Fin 2)} (hF : RealField S F) {rot0 : Fld (Fin 2)} (h0 : RealField S rot0)
    {T : ℝ} (hT : 0 ≤ T) :
    ∃ rot : ℝ → Fld (Fin 2), rot 0 = rot0 ∧ Flow2 S δ beta nu F T rot ∧
      (∀ rot', rot' 0 = rot0 → Flow2 S δ beta nu F T rot' → ∀ t ∈ Set.Icc 0 T, rot' t = rot t) ∧
      SimulationsConverge S δ nu (forced (fun _ : Unit => F) (tend2d n S δ beta)) T fun t _ => rot t := by
  have hsym := sym_of_real h0
  have htriad := SpectBudget.triad_of_noAlias hS h0.1
  have hiff := fun u : Unit → Fld (Fin 2) => realPart_iff hsym u
  obtain ⟨u, hu0, hQ, hder, hconv⟩ := end_to_end_forced S δ hnu (tend := tend2d n S δ beta) (smooth_tend2d n S δ beta)
    (realPart S) (realPart_out S) (realPart_idem hsym) (fun u hu => tend2d_real hsym n δ beta hu) (fun u hu => realPart_fd hsym δ nu hu)
    (w := fun _ _ => 1) (fun _ _ => one_pos) (c := 0) le_rfl
    (fun u hu => by
      have := C38_enstrophy hn htriad hS.distinct δ beta (u ()) (((hiff u).1 hu).1 ())
      unfold rate at this
      simp only [univ_unique, sum_singleton, one_mul, zero_mul]
      exact this.le)
    (F := fun _ => F) ((hiff _).2 ⟨fun _ => hF.1, fun _ => hF.2⟩) (u0 := fun _ => rot0) ((hiff _).2 ⟨fun _ => h0.1, fun _ => h0.2⟩) hT
  have hfor : ∀ (a : Unit → Fld (Fin 2)) ux uy, Velocity2 S δ (a ()) ux uy → ∀ k ∈ S,
      forced (fun _ : Unit => F) (tend2d n S δ beta) a () k - dissipation δ nu (a ()) k
        = -advect S δ ![ux, uy] (a ()) k - beta * uy k - dissipation δ nu (a ()) k + F k := by
    intro a ux uy hv k hk
    rw [forced, tend2d, C57_ns2d hn hS hδ beta hv hk]
    ring
  refine ⟨fun t => u t (), congrFun hu0 (), ⟨?_, ?_⟩, ?_, hconv⟩
  · intro t ht
    have := (hiff _).1 (hQ t ht)
    exact ⟨this.1 (), this.2 ()⟩
  · intro t ht ux uy hv k hk
    exact (hder t ht () k).congr_deriv (hfor (u t) ux uy hv k hk)
  · intro rot' h0' hflow t ht
    have := end_unique S δ (smooth_forced (smooth_tend2d n S δ beta) fun _ => F) (nu := nu) (T := T) (u := fun t _ => rot' t) (u' := u)
      (fun t ht _ k hk => (hflow.real t ht).2 k hk) (fun t ht v k hk => ((hiff _).1 (hQ t ht)).2 v k hk)
      (fun t ht v k hk => (hflow.eq t ht _ _ (velocity2_ux2 hδ (rot' t)) k hk).congr_deriv
        (hfor (fun _ => rot' t) _ _ (velocity2_ux2 hδ (rot' t)) k hk).symm)
      (fun t ht v k _ => hder t ht v k) (by rw [hu0, h0']) t ht
    exact congrFun this ()

/-- C87, ns2d with the default truncation (`coef_dealiasing <= 2/3`, in a domain whose x direction has the smallest largest
wavenumber): the hypothesis on the modes holds. -/
theorem C87_ns2d_default {n : Fin 2 → ℕ} (hn : ∀ d, 0 < n d) {δ : Fin 2 → ℝ} (hδ : ∀ d, 0 < δ d) (hiso : ∀ d, δ 0 * n 0 ≤ δ d * n d)
    {coef : ℝ} (hc0 : 0 ≤ coef) (hc : coef ≤ 2 / 3) {S : Finset (Fin 2 → ℤ)} (hS : ∀ k, k ∈ S ↔ keptSpherical δ n 0 coef k)
    (beta : ℝ) {nu : Dissip.Nu} (hnu : Nu.Ok nu) {F : Fld (Fin 2)} (hF : RealField S F) {rot0 : Fld (Fin 2)} (h0 : RealField S rot0)
    {T : ℝ} (hT : 0 ≤ T) :
    ∃ rot : ℝ → Fld (Fin 2), rot 0 = rot0 ∧ Flow2 S δ beta nu F T rot ∧
      (∀ rot', rot' 0 = rot0 → Flow2 S δ beta nu F T rot' → ∀ t ∈ Set.Icc 0 T, rot' t = rot t) ∧
      SimulationsConverge S δ nu (forced (fun _ : Unit => F) (tend2d n S δ beta)) T fun t _ => rot t :=
  C87_ns2d hn (C57_no_alias δ n 0 hδ hc0 hc hiso fun k hk => (hS k).1 hk) (fun d => (hδ d).ne') beta hnu hF h0 hT

/-- C87, ns2d.strat: the same for the vorticity and the buoyancy, for every Brunt-Väisälä frequency (zero too). -/
theorem C87_ns2d_strat {n : Fin 2 → ℕ} (hn : ∀ d, 0 < n d) {S : Finset (Fin 2 → ℤ)} (hS : NoAlias n S) {δ : Fin 2 → ℝ}
    (hδ : ∀ d, δ d ≠ 0) (N : ℝ) {nu : Dissip.Nu} (hnu : Nu.Ok nu) {F H : Fld (Fin 2)} (hF : RealField S F) (hH : RealField S H)
    {rot0 b0 : Fld (Fin 2)} (h0 : RealField S rot0) (hb0 : RealField S b0) {T : ℝ} (hT : 0 ≤ T) :
    ∃ rot b : ℝ → Fld (Fin 2), rot 0 = rot0 ∧ b 0 = b0 ∧ FlowStrat S δ N nu F H T rot b ∧
      (∀ rot' b', rot' 0 = rot0 → b' 0 = b0 → FlowStrat S δ N nu F H T rot' b' → ∀ t ∈ Set.Icc 0 T, rot' t = rot t ∧ b' t = b t) ∧
      SimulationsConverge S δ nu (forced ![F, H] (tendStrat n S δ N)) T fun t => ![rot t, b t] := by
  have hsym := sym_of_real h0
  have htriad := SpectBudget.triad_of_noAlias hS h0.1
  have hiff := fun u : Fin 2 → Fld (Fin 2) => realPart_iff hsym u
  have hpair : ∀ {a b : Fld (Fin 2)}, RealField S a → RealField S b → realPart S ![a, b] = ![a, b] := fun {a b} ha hb =>
    (hiff _).2 ⟨fun v => by fin_cases v; exacts [ha.1, hb.1], fun v => by fin_cases v; exacts [ha.2, hb.2]⟩
  have hB : 0 ≤ stratBound S δ N := sum_nonneg fun _ _ => by positivity
  obtain ⟨u, hu0, hQ, hder, hconv⟩ := end_to_end_forced S δ hnu (tend := tendStrat n S δ N) (smooth_tendStrat n S δ N)
    (realPart S) (realPart_out S) (realPart_idem hsym) (fun u hu => tendStrat_real hsym n δ N hu) (fun u hu => realPart_fd hsym δ nu hu)
    (w := fun _ _ => 1) (fun _ _ => one_pos) (c := stratBound S δ N) hB
    (fun u hu => by
      have := strat_energy hn htriad hS.distinct δ N (u 0) (u 1) (((hiff u).1 hu).1 0) (((hiff u).1 hu).1 1)
      unfold rate at this
      simp only [Fin.sum_univ_two, one_mul, ← sum_add_distrib] at this ⊢
      refine le_trans (le_of_eq ?_) (this.trans ?_)
      · simp [tendStrat]
      · linarith)
    (F := ![F, H]) (hpair hF hH) (u0 := ![rot0, b0]) (hpair h0 hb0) hT
  have hfor : ∀ (a : Fin 2 → Fld (Fin 2)) ux uy, Velocity2 S δ (a 0) ux uy → ∀ k ∈ S,
      forced ![F, H] (tendStrat n S δ N) a 0 k - dissipation δ nu (a 0) k
        = -advect S δ ![ux, uy] (a 0) k + pd δ 0 (a 1) k - dissipation δ nu (a 0) k + F k ∧
      forced ![F, H] (tendStrat n S δ N) a 1 k - dissipation δ nu (a 1) k
        = -advect S δ ![ux, uy] (a 1) k - N ^ 2 * uy k - dissipation δ nu (a 1) k + H k := by
    intro a ux uy hv k hk
    obtain ⟨h1, h2⟩ := C57_ns2d_strat hn hS hδ N (a 1) hv hk
    constructor
    · simp only [forced, tendStrat, if_true, h1, Matrix.cons_val_zero]
      ring
    · simp only [forced, tendStrat, one_ne_zero, if_false, h2, Matrix.cons_val_one]
      simp only [Matrix.cons_val_fin_one]
      ring
  have hu : u = fun t => ![u t 0, u t 1] := by
    funext t v
    fin_cases v <;> rfl
  refine ⟨fun t => u t 0, fun t => u t 1, congrFun hu0 0, congrFun hu0 1, ⟨?_, ?_⟩, ?_, hu ▸ hconv⟩
  · intro t ht
    have := (hiff _).1 (hQ t ht)
    exact ⟨⟨this.1 0, this.2 0⟩, this.1 1, this.2 1⟩
  · intro t ht ux uy hv k hk
    obtain ⟨h1, h2⟩ := hfor (u t) ux uy hv k hk
    exact ⟨(hder t ht 0 k).congr_deriv h1, (hder t ht 1 k).congr_deriv h2⟩
  · intro rot' b' h0' hb0' hflow t ht
    have := end_unique S δ (smooth_forced (smooth_tendStrat n S δ N) ![F, H]) (nu := nu) (T := T) (u := fun t => ![rot' t, b' t]) (u' := u)
      (fun t ht v k hk => by
        have := hflow.real t ht
        fin_cases v
        exacts [this.1.2 k hk, this.2.2 k hk])
      (fun t ht v k hk => ((hiff _).1 (hQ t ht)).2 v k hk)
      (fun t ht v k hk => by
        obtain ⟨e1, e2⟩ := hfor ![rot' t, b' t] _ _ (velocity2_ux2 hδ (rot' t)) k hk
        obtain ⟨d1, d2⟩ := hflow.eq t ht _ _ (velocity2_ux2 hδ (rot' t)) k hk
        fin_cases v
        · exact d1.congr_deriv e1.symm
        · exact d2.congr_deriv e2.symm)
      (fun t ht v k _ => hder t ht v k) (by simp only [hu0, h0', hb0']) t ht
    exact ⟨congrFun this 0, congrFun this 1⟩

/-- C87, ns3d: for every initial velocity admissible (real, with the modes kept, unchanged by the projection of the solver: divergence
free, or only toroidal or poloidal), with and without rotation, the documented equations have one and only one solution, and the
simulations, whose steps end with the projection, converge to it. -/
theorem C87_ns3d {n : Fin 3 → ℕ} (hn : ∀ d, 0 < n d) {S : Finset (Fin 3 → ℤ)} (hS : NoAlias n S) (δ : Fin 3 → ℝ) (f : Option ℝ)
    (p : Projection) (noVz : Bool) {nu : Dissip.Nu} (hnu : Nu.Ok nu) {F : Fin 3 → Fld (Fin 3)} (hF : Admissible S δ p noVz F)
    {v0 : Fin 3 → Fld (Fin 3)} (h0 : Admissible S δ p noVz v0) {T : ℝ} (hT : 0 ≤ T) :
    ∃ v : ℝ → Fin 3 → Fld (Fin 3), v 0 = v0 ∧ Flow3 S δ (f.getD 0) p noVz nu F T v ∧
      (∀ v', v' 0 = v0 → Flow3 S δ (f.getD 0) p noVz nu F T v' → ∀ t ∈ Set.Icc 0 T, v' t = v t) ∧
      SimulationsConverge3d S δ nu (fun G => project3d G δ p noVz) (forced F (tend3d n S δ f p noVz)) T v := by
  have hsym := sym_of_real (h0.1 0)
  have hiff := admPart_iff hsym δ p noVz
  have hfd : ∀ (g : (Fin 3 → ℤ) → ℝ), (∀ k, g (-k) = g k) → ∀ u, Admissible S δ p noVz u →
      Admissible S δ p noVz fun c k => (g k : ℂ) * u c k := by
    intro g hg u hu
    refine ⟨fun c => ⟨(hu.1 c).1.mul g hg, fun k hk => by simp only [(hu.1 c).2 k hk, mul_zero]⟩, fun k hk => ?_⟩
    have := projV_linear p noVz (wave3 δ k) (g k) 0 (vec u k) (vec u k)
    simp only [zero_mul, add_zero, hu.2 k hk] at this
    exact this
  have hgneg : ∀ k, Dissip.fd nu (waveSq δ (-k)) = Dissip.fd nu (waveSq δ k) := fun k => by rw [waveSq_neg]
  obtain ⟨u, hu0, hQ, hder, hconv⟩ := end_to_end_forced S δ hnu (tend := tend3d n S δ f p noVz) (smooth_tend3d n S δ f p noVz)
    (admPart S δ p noVz) (fun u c k hk => (admPart_adm hsym δ p noVz u).1 c |>.2 k hk)
    (fun u => (hiff _).2 (admPart_adm hsym δ p noVz u))
    (fun u hu => (hiff _).2 (tend3d_adm hsym n δ f p noVz fun c => ((hiff u).1 hu).1 c |>.1))
    (fun u hu => (hiff _).2 (hfd _ hgneg u ((hiff u).1 hu)))
    (w := fun _ _ => 1) (fun _ _ => one_pos) (c := 0) le_rfl
    (fun u hu => by
      have hu' := (hiff u).1 hu
      have := C37_energy n S δ f p noVz (vec u) ⟨(hu'.1 0).1, (hu'.1 1).1, (hu'.1 2).1⟩ fun k hk => by
        have h1 : (projectState p noVz (wave3 δ k) ⟨vec u k, none⟩).b = none := by
          simp only [projectState]
          split_ifs <;> rfl
        have h2 := (projectState_v p noVz (wave3 δ k) (vec u k) none).trans (hu'.2 k hk)
        cases h : projectState p noVz (wave3 δ k) ⟨vec u k, none⟩ with
        | mk a b =>
          rw [h] at h1 h2
          simp only at h1 h2
          rw [h1, h2]
      simp only [rateV, Vectors.inner, Complex.add_re, sum_add_distrib] at this
      simp only [Fin.sum_univ_three, one_mul, zero_mul]
      exact this.le)
    (F := F) ((hiff _).2 hF) (u0 := v0) ((hiff _).2 h0) hT
  have hfor : ∀ (a : Fin 3 → Fld (Fin 3)) c, ∀ k ∈ S, forced F (tend3d n S δ f p noVz) a c k - dissipation δ nu (a c) k
        = components (fun k => projV p noVz (wave3 δ k) (navierStokes S δ (f.getD 0) (vec a) k)) c k - dissipation δ nu (a c) k
          + F c k := by
    intro a c k hk
    have e := C57_ns3d hn hS δ f p noVz (vec a) hk
    have e' : ns3d n S δ f p noVz (vec a) k = projV p noVz (wave3 δ k) (navierStokes S δ (f.getD 0) (vec a) k) := e
    have e2 : tend3d n S δ f p noVz a c k
        = components (fun k => projV p noVz (wave3 δ k) (navierStokes S δ (f.getD 0) (vec a) k)) c k := by
      fin_cases c <;> simp only [tend3d, components, e']
    rw [forced, e2]
    ring
  refine ⟨u, hu0, ⟨fun t ht => (hiff _).1 (hQ t ht), fun t ht c k hk => (hder t ht c k).congr_deriv (hfor (u t) c k hk)⟩, ?_, ?_⟩
  · intro v' h0' hflow t ht
    exact end_unique S δ (smooth_forced (smooth_tend3d n S δ f p noVz) F) (nu := nu) (T := T) (u := v') (u' := u)
      (fun t ht c k hk => ((hflow.adm t ht).1 c).2 k hk) (fun t ht c k hk => (((hiff _).1 (hQ t ht)).1 c).2 k hk)
      (fun t ht c k hk => (hflow.eq t ht c k hk).congr_deriv (hfor (v' t) c k hk).symm)
      (fun t ht v k _ => hder t ht v k) (by rw [hu0, h0']) t ht
  · refine converge3d hconv (admPart S δ p noVz) (fun u c k hk => (admPart_adm hsym δ p noVz u).1 c |>.2 k hk) ?_
      (fun g hg u hu => (hiff _).2 (hfd g hg u ((hiff u).1 hu))) ?_ (by rw [hu0]; exact (hiff _).2 h0)
    · intro u hu
      have e : forced F (tend3d n S δ f p noVz) u = tend3d n S δ f p noVz u + F := rfl
      rw [e, map_add, (hiff _).2 (tend3d_adm hsym n δ f p noVz fun c => ((hiff u).1 hu).1 c |>.1), (hiff F).2 hF]
    · intro G hG a ha
      have ha' := (hiff _).1 ha
      have e : (fun k => (projectState p noVz (wave3 δ k) ⟨vec (fields G a) k, none⟩).v) = vec (fields G a) := by
        funext k
        rw [projectState_v]
        exact (projPart_iff δ p noVz _).1 ((admissible_iff hsym δ p noVz _).2 ha').2 k
      rw [project3d, e, components_vec, array_fields]

/-- C87: in ns3d the force is added before the projection; for an admissible force this is the sum of the projected tendency and of
the force. -/
theorem C87_force_order {S : Finset (Fin 3 → ℤ)} {δ : Fin 3 → ℝ} {p : Projection} {noVz : Bool} {F : Fin 3 → Fld (Fin 3)}
    (hF : Admissible S δ p noVz F) (v : V3) {k : Fin 3 → ℤ} (hk : k ∈ S) :
    projV p noVz (wave3 δ k) (add v (vec F k)) = add (projV p noVz (wave3 δ k) v) (vec F k) := by
  have := projV_linear p noVz (wave3 δ k) 1 1 v (vec F k)
  simp only [one_mul, hF.2 k hk] at this
  exact this

/-- C87: with the default projection, the admissible velocities are the real fields without divergence. -/
theorem C87_admissible_default (S : Finset (Fin 3 → ℤ)) (δ : Fin 3 → ℝ) (v : Fin 3 → Fld (Fin 3)) :
    Admissible S δ .none false v ↔ (∀ c, RealField S (v c)) ∧ ∀ k ∈ S, pd δ 0 (v 0) k + pd δ 1 (v 1) k + pd δ 2 (v 2) k = 0 := by
  have e : ∀ k, pd δ 0 (v 0) k + pd δ 1 (v 1) k + pd δ 2 (v 2) k = Complex.I * kdot (wave3 δ k) (vec v k) := fun k => by
    simp only [pd, kdot, wave3, vec]
    ring
  have e2 : ∀ k, projV .none false (wave3 δ k) (vec v k) = vec v k ↔ kdot (wave3 δ k) (vec v k) = 0 := by
    intro k
    have : projV .none false (wave3 δ k) (vec v k) = perpk (wave3 δ k) (vec v k) := by simp [projV, projector]
    rw [this]
    constructor
    · intro h
      rw [← h]
      exact C28_orthogonal _ _
    · exact fun h => C28_divergence_free_unchanged _ _ h
  simp only [Admissible, e, e2, mul_eq_zero, Complex.I_ne_zero, false_or]

/-! ### The hypotheses are satisfiable -/

/-- The modes of a small box. -/
def box {d : ℕ} : Finset (Fin d → ℤ) := Fintype.piFinset fun _ => {-1, 0, 1}

theorem box_neg {d : ℕ} {k : Fin d → ℤ} (hk : k ∈ box) : -k ∈ box := by
  simp only [box, Fintype.mem_piFinset, mem_insert, mem_singleton, Pi.neg_apply] at hk ⊢
  intro a
  rcases hk a with h | h | h <;> rw [h] <;> simp

theorem box_noAlias {d : ℕ} : NoAlias (fun _ : Fin d => 4) (box : Finset (Fin d → ℤ)) := by
  refine noAlias_of_small _ _ fun k hk a => ?_
  simp only [box, Fintype.mem_piFinset, mem_insert, mem_singleton] at hk
  rcases hk a with h | h | h <;> rw [h] <;> simp

theorem box_real {d : ℕ} : RealField box fun k : Fin d → ℤ => if k ∈ (box : Finset (Fin d → ℤ)) then 1 else 0 :=
  ⟨fun k hk => ⟨box_neg hk, by simp [hk, box_neg hk]⟩, fun k hk => by simp [hk]⟩

/-- A forced dissipative flow on a beta plane. -/
example : ∃ rot : ℝ → Fld (Fin 2), rot 0 = (fun k => if k ∈ box then 1 else 0) ∧
    Flow2 box (fun _ => 1) 1 ⟨1, 0, 1, 0⟩ (fun k => if k ∈ box then 1 else 0) 10 rot := by
  obtain ⟨rot, h0, h, -⟩ := C87_ns2d (n := fun _ => 4) (fun _ => by norm_num) box_noAlias (δ := fun _ => 1) (fun _ => one_ne_zero) 1
    (nu := ⟨1, 0, 1, 0⟩) ⟨by norm_num, by norm_num, by norm_num, rfl⟩ box_real box_real (T := 10) (by norm_num)
  exact ⟨rot, h0, h⟩

/-- An admissible velocity: a vertical shear flow. -/
example : Admissible box (fun _ => 1) .none false
    ![fun k => if k ∈ box ∧ k 0 = 0 ∧ k 1 = 0 then 1 else 0, fun _ => 0, fun _ => 0] := by
  rw [C87_admissible_default]
  constructor
  · intro c
    fin_cases c
    · refine ⟨fun k hk => ⟨box_neg hk, ?_⟩, fun k hk => by simp [hk]⟩
      simp [hk, box_neg hk, apply_ite]
    · exact ⟨fun k hk => ⟨box_neg hk, by simp⟩, fun k _ => rfl⟩
    · exact ⟨fun k hk => ⟨box_neg hk, by simp⟩, fun k _ => rfl⟩
  · intro k hk
    by_cases h : k 0 = 0 <;> simp [pd, h]

end

end Verif.EndToEnd
