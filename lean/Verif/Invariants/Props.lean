import Verif.Invariants.LemmasRuns
import Verif.Symmetry.Units

/-!
# C101: what the simulations conserve: the means

For every scheme, every phase shifts, every sequence of time steps (fixed or with the CFL condition), every number of steps and every force
(one for each step): the mean of the following variables is its initial value plus the sum of the means of the forces times the time steps.
In particular it does not change without force, and it does not depend on the viscosities.
-/

set_option linter.unusedSectionVars false

namespace Verif.Invariants

open Verif.Fourier Verif.Vectors Verif.Energy Verif.Galerkin Verif.Schemes Verif.EndToEnd Verif.Symmetry Finset

noncomputable section

theorem advect_mean2 {S : Finset (Fin 2 → ℤ)} {δ : Fin 2 → ℝ} {rot ux uy : Fld (Fin 2)} (h : Velocity2 S δ rot ux uy) (a : Fld (Fin 2)) :
    advect S δ ![ux, uy] a 0 = 0 :=
  advect_mean S δ (fun k hk => by simpa [Fin.sum_univ_two] using h.div k hk) a

/-- C101 (ns2d): the vorticity. -/
theorem C101_mean_ns2d {n : Fin 2 → ℕ} (hn : ∀ d, 0 < n d) {S G : Finset (Fin 2 → ℤ)} (hS : NoAlias n S) (h0 : (0 : Fin 2 → ℤ) ∈ S)
    (hG : S ⊆ G) {δ : Fin 2 → ℝ} (hδ : ∀ d, δ d ≠ 0) (beta : ℝ) (nu : Dissip.Nu) {c : Numerics (Fin 2) Unit} (hc : Proper c)
    (F : ℕ → Unit → Fld (Fin 2)) (rot0 : Unit → Fld (Fin 2)) :
    MeanFollowsForce n S c.dt F (runNs2d n S G δ beta nu c F rot0) () :=
  run_mean_all hn hS.distinct h0 hG hc fun u => by
    have hv := velocity2_ux2 (S := S) hδ (u ())
    rw [tend2d, C57_ns2d hn hS hδ beta hv h0, advect_mean2 hv, hv.mean.2]
    ring

/-- C101 (ns2d.strat): the vorticity and the buoyancy, for every `N`. -/
theorem C101_mean_ns2d_strat {n : Fin 2 → ℕ} (hn : ∀ d, 0 < n d) {S G : Finset (Fin 2 → ℤ)} (hS : NoAlias n S) (h0 : (0 : Fin 2 → ℤ) ∈ S)
    (hG : S ⊆ G) {δ : Fin 2 → ℝ} (hδ : ∀ d, δ d ≠ 0) (N : ℝ) (nu : Dissip.Nu) {c : Numerics (Fin 2) (Fin 2)} (hc : Proper c)
    (F : ℕ → Fin 2 → Fld (Fin 2)) (u0 : Fin 2 → Fld (Fin 2)) (v : Fin 2) :
    MeanFollowsForce n S c.dt F (runStrat2d n S G δ N nu c F u0) v :=
  run_mean_all hn hS.distinct h0 hG hc fun u => by
    have hv := velocity2_ux2 (S := S) hδ (u 0)
    obtain ⟨h1, h2⟩ := C57_ns2d_strat hn hS hδ N (u 1) hv h0
    fin_cases v
    · simp only [tendStrat, Fin.zero_eta, if_true]
      rw [h1, advect_mean2 hv]
      simp [pd]
    · simp only [tendStrat, Fin.mk_one, one_ne_zero, if_false]
      rw [h2, advect_mean2 hv, hv.mean.2]
      ring

/-- C101 (ns2d.bouss): the vorticity and the buoyancy. -/
theorem C101_mean_ns2d_bouss {n : Fin 2 → ℕ} (hn : ∀ d, 0 < n d) {S G : Finset (Fin 2 → ℤ)} (hS : NoAlias n S) (h0 : (0 : Fin 2 → ℤ) ∈ S)
    (hG : S ⊆ G) {δ : Fin 2 → ℝ} (hδ : ∀ d, δ d ≠ 0) (nu : Dissip.Nu) {c : Numerics (Fin 2) (Fin 2)} (hc : Proper c)
    (F : ℕ → Fin 2 → Fld (Fin 2)) (u0 : Fin 2 → Fld (Fin 2)) (v : Fin 2) :
    MeanFollowsForce n S c.dt F (run S G δ nu id (tendBouss n S δ) c F u0) v :=
  run_mean_all hn hS.distinct h0 hG hc fun u => by
    have hv := velocity2_ux2 (S := S) hδ (u 0)
    obtain ⟨h1, h2⟩ := C57_ns2d_bouss hn hS hδ (u 1) hv h0
    fin_cases v
    · simp only [tendBouss, Fin.zero_eta, if_true]
      rw [h1, advect_mean2 hv]
      simp [pd]
    · simp only [tendBouss, Fin.mk_one, one_ne_zero, if_false]
      rw [h2, advect_mean2 hv]
      ring

/-- C101 (sw1l): the mass, `η`, even when the products are aliased. -/
theorem C101_mass_sw1l {n : Fin 2 → ℕ} (hn : ∀ d, 0 < n d) {S G : Finset (Fin 2 → ℤ)} (hS : Distinct n S) (h0 : (0 : Fin 2 → ℤ) ∈ S)
    (hG : S ⊆ G) (p : Sw1l.Par) (nu : Dissip.Nu) {c : Numerics (Fin 2) (Fin 3)} (hc : Proper c)
    (F : ℕ → Fin 3 → Fld (Fin 2)) (u0 : Fin 3 → Fld (Fin 2)) :
    MeanFollowsForce n S c.dt F (run S G p.δ nu id (tendSw1l p n S) c F u0) 2 :=
  run_mean_all hn hS h0 hG hc fun u => by
    simp [tendSw1l, ofUEta, Sw1l.sw1l, Sw1l.trunc, h0, Sw1l.divOf, Sw1l.Par.kx, Sw1l.Par.ky]

/-- C101 (sw1l.modified): the mass, `η`. -/
theorem C101_mass_sw1l_modified {n : Fin 2 → ℕ} (hn : ∀ d, 0 < n d) {S G : Finset (Fin 2 → ℤ)} (hS : NoAlias n S) (h0 : (0 : Fin 2 → ℤ) ∈ S)
    (hG : S ⊆ G) (p : Sw1l.Par) (hδ : ∀ d, p.δ d ≠ 0) (nu : Dissip.Nu) {c : Numerics (Fin 2) (Fin 3)} (hc : Proper c)
    (F : ℕ → Fin 3 → Fld (Fin 2)) (u0 : Fin 3 → Fld (Fin 2)) :
    MeanFollowsForce n S c.dt F (run S G p.δ nu id (tendModified p n S) c F u0) 2 :=
  run_mean_all hn hS.distinct h0 hG hc fun u => by
    have hv := velocity2_ux2 (S := S) hδ fun k => Sw1l.rotOf p k (u 0 k) (u 1 k)
    have := advect2 hn hS hδ hv (fun k => u 2 k) h0
    rw [advect_mean2 hv, neg_zero] at this
    simp only [tendModified, ofUEta, Sw1l.modified, Sw1l.trunc, h0, if_true, uEta]
    have e : Sw1l.divOf p 0 (u 0 0) (u 1 0) = 0 := by simp [Sw1l.divOf, Sw1l.Par.kx, Sw1l.Par.ky]
    rw [e, sub_zero]
    exact this

/-- C101 (burgers1d and burgers1d.skew_sym): `u`. -/
theorem C101_mean_burgers (skew : Bool) {nx : ℕ} (hn : 0 < nx) {S G : Finset (Unit → ℤ)} (hS : NoAlias (fun _ => nx) S)
    (h0 : (0 : Unit → ℤ) ∈ S) (hG : S ⊆ G) (δ : ℝ) (nu : Dissip.Nu) {c : Numerics Unit Unit} (hc : Proper c)
    (F : ℕ → Unit → Fld Unit) (u0 : Unit → Fld Unit) :
    MeanFollowsForce (fun _ => nx) S c.dt F (run S G (fun _ => δ) nu id (tendBurgers skew nx S δ) c F u0) () :=
  run_mean_all (n := fun _ : Unit => nx) (fun _ => hn) hS.distinct h0 hG hc fun u => by
    have ha : advect S (fun _ => δ) (fun _ => u ()) (u ()) 0 = 0 := by
      simp [advect, exact_half]
    by_cases hk : Burgers.kept nx S 0
    · obtain ⟨h1, h2⟩ := C57_burgers hn hS δ (u ()) hk
      rw [ha, neg_zero] at h1 h2
      cases skew
      · exact h1
      · exact h2
    · cases skew <;> simp [tendBurgers, Burgers.skewSym, Burgers.convective, hk]

theorem linear_div (k : K3) : Linear fun z : Fin 3 → ℂ => kdot k ⟨z 0, z 1, z 2⟩ = 0 := by
  constructor
  · intro x y hx hy
    simp only [kdot, Pi.add_apply] at *
    linear_combination hx + hy
  · intro a x hx
    simp only [kdot, Pi.smul_apply, smul_eq_mul] at *
    linear_combination a * hx

theorem wave3_zero (δ : Fin 3 → ℝ) : wave3 δ 0 = ⟨0, 0, 0⟩ := by simp [wave3]

theorem perpk_zero (v : V3) : perpk ⟨0, 0, 0⟩ v = v := C28_divergence_free_unchanged _ _ (by simp [kdot])

theorem kdot_projectState (noVz : Bool) (k : K3) (s : ModeState) : kdot k (projectState .none noVz k s).v = 0 := by
  have h := C28_orthogonal k s.v
  simp only [projectState, projector]
  split
  · rename_i hz
    have : k.z = 0 := abs_eq_zero.1 hz.2
    simp only [kdot, this, Complex.ofReal_zero, zero_mul, add_zero] at h ⊢
    exact h
  · exact h

theorem navier_mean {S : Finset (Fin 3 → ℤ)} {δ : Fin 3 → ℝ} {v : (Fin 3 → ℤ) → V3} (hv : ∀ k ∈ S, kdot (wave3 δ k) (v k) = 0) {f : ℝ}
    (hf : f = 0) : navierStokes S δ f v 0 = ⟨0, 0, 0⟩ := by
  have : ∀ a, advect S δ (comp v) a 0 = 0 := advect_mean S δ fun k hk => by
    have := hv k hk
    simp only [kdot, wave3] at this
    simp only [Fin.sum_univ_three, pd, comp]
    linear_combination Complex.I * this
  simp [navierStokes, this, hf]

theorem projectState_mean (noVz : Bool) (δ : Fin 3 → ℝ) (s : ModeState) :
    (projectState .none noVz (wave3 δ 0) s).v = if noVz then ⟨s.v.x, s.v.y, 0⟩ else s.v := by
  cases noVz <;> simp [projectState, projector, wave3_zero, perpk_zero]

/-- A velocity without divergence. -/
def DivFree (S : Finset (Fin 3 → ℤ)) (δ : Fin 3 → ℝ) (ux uy uz : Fld (Fin 3)) : Prop :=
  ∀ k ∈ S, pd δ 0 ux k + pd δ 1 uy k + pd δ 2 uz k = 0

theorem kdot_of_divFree {S : Finset (Fin 3 → ℤ)} {δ : Fin 3 → ℝ} {ux uy uz : Fld (Fin 3)} (h : DivFree S δ ux uy uz) {k : Fin 3 → ℤ}
    (hk : k ∈ S) : kdot (wave3 δ k) ⟨ux k, uy k, uz k⟩ = 0 := by
  have := h k hk
  simp only [pd] at this
  simp only [kdot, wave3]
  linear_combination -Complex.I * this + (((δ 0 * k 0 : ℝ) : ℂ) * ux k + ((δ 1 * k 1 : ℝ) : ℂ) * uy k + ((δ 2 * k 2 : ℝ) : ℂ) * uz k)
    * Complex.I_sq

/-- C101 (ns3d): the three components of the velocity (the momentum), without rotation; the vertical component if `no_vz_kz0` does not
remove it. -/
theorem C101_momentum_ns3d {n : Fin 3 → ℕ} (hn : ∀ d, 0 < n d) {S G : Finset (Fin 3 → ℤ)} (hS : NoAlias n S) (h0 : (0 : Fin 3 → ℤ) ∈ S)
    (hG : S ⊆ G) (δ : Fin 3 → ℝ) {f : Option ℝ} (hf : f.getD 0 = 0) (noVz : Bool) (nu : Dissip.Nu) {c : Numerics (Fin 3) (Fin 3)}
    (hc : Proper c) {F : ℕ → Fin 3 → Fld (Fin 3)} (hF : ∀ m, DivFree S δ (F m 0) (F m 1) (F m 2)) {u0 : Fin 3 → Fld (Fin 3)}
    (hu : DivFree S δ (u0 0) (u0 1) (u0 2)) {v : Fin 3} (hv : v = 2 → noVz = false) :
    MeanFollowsForce n S c.dt F (runNs3d n S G δ f .none noVz nu c F u0) v := by
  have harr : ∀ u : Fin 3 → Fld (Fin 3), (∀ k ∈ S, kdot (wave3 δ k) ⟨u 0 k, u 1 k, u 2 k⟩ = 0) →
      Modes G S (fun k z => kdot (wave3 δ k) ⟨z 0, z 1, z 2⟩ = 0) (array G u) := by
    intro u h k hk
    simp only [fields, hG hk, dif_pos, array]
    exact h k hk
  refine run_mean hn hS.distinct h0 hG hc (P := Modes G S fun k z => kdot (wave3 δ k) ⟨z 0, z 1, z 2⟩ = 0)
    (kept_modes (fun k => linear_div _) δ nu (fun x _ => harr _ fun k _ => kdot_projectState _ _ _)
      (fun x hx => harr _ fun k hk => ?_) (fun m => harr _ fun k hk => kdot_of_divFree (hF m) hk) c)
    (harr _ fun k hk => kdot_of_divFree hu hk) (fun x hx => ?_) fun x hx => ?_
  · simp only [tend3d, components, ns3d, hk, if_true]
    exact kdot_projectState _ _ _
  · have hd : ∀ k ∈ S, kdot (wave3 δ k) (vec (fields G x) k) = 0 := fun k hk => hx k hk
    have := C57_ns3d hn hS δ f .none noVz (vec (fields G x)) h0
    simp only [navier_mean hd hf, projector, wave3_zero, perpk_zero, ite_self] at this
    fin_cases v <;> simp [tend3d, components, this]
  · have e : ∀ w : Fin 3, fields G x w 0 = x (w, ⟨0, hG h0⟩) := fun w => by simp [fields, hG h0]
    have p0 := projectState_mean noVz δ ⟨vec (fields G x) 0, none⟩
    fin_cases v
    · exact (congrArg V3.x p0).trans (by split <;> exact e 0)
    · exact (congrArg V3.y p0).trans (by split <;> exact e 1)
    · exact (congrArg V3.z p0).trans (by rw [hv rfl]; exact e 2)

theorem linear_div4 (k : K3) (Z : Prop) :
    Linear fun z : Fin 4 → ℂ => kdot k ⟨z 0, z 1, z 2⟩ = 0 ∧ (Z → z 2 = 0 ∧ z 3 = 0) := by
  constructor
  · rintro x y ⟨hx, hx'⟩ ⟨hy, hy'⟩
    refine ⟨?_, fun h => ?_⟩
    · simp only [kdot, Pi.add_apply] at *
      linear_combination hx + hy
    · simp [hx' h, hy' h]
  · rintro a x ⟨hx, hx'⟩
    refine ⟨?_, fun h => ?_⟩
    · simp only [kdot, Pi.smul_apply, smul_eq_mul] at *
      linear_combination a * hx
    · simp [hx' h]

section

variable {n : Fin 3 → ℕ} {S G : Finset (Fin 3 → ℤ)} {δ : Fin 3 → ℝ}

/-- The states without divergence and, for `Z`, without mean vertical velocity and mean buoyancy. -/
def Strat (G S : Finset (Fin 3 → ℤ)) (δ : Fin 3 → ℝ) (Z : Prop) : Arr (Fin 4 × G) → Prop :=
  Modes G S fun k z => kdot (wave3 δ k) ⟨z 0, z 1, z 2⟩ = 0 ∧ (Z ∧ k = 0 → z 2 = 0 ∧ z 3 = 0)

theorem strat_array (hG : S ⊆ G) {Z : Prop} {u : Fin 4 → Fld (Fin 3)} (h : ∀ k ∈ S, kdot (wave3 δ k) ⟨u 0 k, u 1 k, u 2 k⟩ = 0)
    (hZ : Z → u 2 0 = 0 ∧ u 3 0 = 0) : Strat G S δ Z (array G u) := by
  intro k hk
  simp only [fields, hG hk, dif_pos, array]
  exact ⟨h k hk, fun z => by rw [z.2]; exact hZ z.1⟩

/-- The tendency of the mean. -/
theorem strat_mean (hn : ∀ d, 0 < n d) (hS : NoAlias n S) (h0 : (0 : Fin 3 → ℤ) ∈ S) {f : Option ℝ}
    (hf : f.getD 0 = 0) (N : ℝ) (noVz : Bool) {u : Fin 4 → Fld (Fin 3)} (hu : ∀ k ∈ S, kdot (wave3 δ k) (modeState u k).v = 0) :
    ns3dStrat n S δ f N .none noVz (fun k => (modeState u k).v) (u 3) 0
      = if noVz then ⟨⟨0, 0, 0⟩, some 0⟩ else ⟨⟨0, 0, u 3 0⟩, some (-(N ^ 2 * u 2 0))⟩ := by
  obtain ⟨a, ha⟩ := lamb_eq hn hS δ f (fun k => (modeState u k).v) h0
  simp only [navier_mean hu hf, add, wave3_zero] at ha
  have hd : divVb n S δ (fun k => (modeState u k).v) (u 3) 0 = 0 := by simp [divVb, wave3_zero]
  simp only [ns3dStrat, h0, if_true, projectState, projector, wave3_zero, perpk_zero, hd, ha]
  cases noVz <;> simp [modeState]

theorem kept_strat (hn : ∀ d, 0 < n d) (hS : NoAlias n S) (h0 : (0 : Fin 3 → ℤ) ∈ S) (hG : S ⊆ G) {f : Option ℝ} (hf : f.getD 0 = 0) (N : ℝ)
    (noVz : Bool) (nu : Dissip.Nu) (c : Numerics (Fin 3) (Fin 4)) (Z : Prop) {F : ℕ → Fin 4 → Fld (Fin 3)}
    (hF : ∀ m, DivFree S δ (F m 0) (F m 1) (F m 2)) (hZ : Z → ∀ m, F m 2 0 = 0 ∧ F m 3 0 = 0) :
    Kept (Strat G S δ Z) (project3dStrat G δ .none noVz) (fun m => onArrays G (forced (F m) (tend3dStrat n S δ f N .none noVz)))
      (freqDiss G δ nu) (truncated G S) (fun m i => c.ps m i.2.1) (fun m i => c.pa m i.2.1) (fun m i => c.pb m i.2.1) := by
  refine kept_modes (fun k => linear_div4 _ _) δ nu (fun x hx => strat_array hG (fun k _ => kdot_projectState _ _ _) fun z => ?_)
    (fun x hx => strat_array hG (fun k hk => ?_) fun z => ?_) (fun m => strat_array hG (fun k hk => kdot_of_divFree (hF m) hk) fun z => hZ z m) c
  · have := (hx 0 h0).2 ⟨z, rfl⟩
    simp only [components4, projectState, projector, wave3_zero, perpk_zero]
    split <;> simp [modeState, this]
  · simp only [tend3dStrat, components4, ns3dStrat, hk, if_true]
    exact kdot_projectState _ _ _
  · have := (hx 0 h0).2 ⟨z, rfl⟩
    simp only [tend3dStrat, components4, strat_mean hn hS h0 hf N noVz fun k hk => (hx k hk).1]
    cases noVz <;> simp [this]

/-- C101 (ns3d.strat; ns3d.bouss for `N = 0`): the horizontal components of the velocity, without rotation and for every `N`; the buoyancy
when `N = 0` (if `no_vz_kz0` does not remove its mean). -/
theorem C101_momentum_ns3d_strat (hn : ∀ d, 0 < n d) (hS : NoAlias n S) (h0 : (0 : Fin 3 → ℤ) ∈ S) (hG : S ⊆ G) {f : Option ℝ}
    (hf : f.getD 0 = 0) (N : ℝ) (noVz : Bool) (nu : Dissip.Nu) {c : Numerics (Fin 3) (Fin 4)} (hc : Proper c)
    {F : ℕ → Fin 4 → Fld (Fin 3)} (hF : ∀ m, DivFree S δ (F m 0) (F m 1) (F m 2)) {u0 : Fin 4 → Fld (Fin 3)}
    (hu : DivFree S δ (u0 0) (u0 1) (u0 2)) {v : Fin 4} (hv2 : v ≠ 2) (hv3 : v = 3 → N = 0 ∧ noVz = false) :
    MeanFollowsForce n S c.dt F (runStrat3d n S G δ f N .none noVz nu c F u0) v := by
  refine run_mean hn hS.distinct h0 hG hc (kept_strat hn hS h0 hG hf N noVz nu c False hF fun z => z.elim)
    (strat_array hG (fun k hk => kdot_of_divFree hu hk) fun z => z.elim) (fun x hx => ?_) fun x hx => ?_
  · have := strat_mean hn hS h0 hf N noVz (u := fields G x) fun k hk => (hx k hk).1
    fin_cases v
    · exact (congrArg (fun s => s.v.x) this).trans (by split <;> rfl)
    · exact (congrArg (fun s => s.v.y) this).trans (by split <;> rfl)
    · exact absurd rfl hv2
    · obtain ⟨hN, hz⟩ := hv3 rfl
      refine (congrArg (fun s => s.b.getD 0) this).trans ?_
      simp only [hz, hN, Bool.false_eq_true, if_false, Complex.ofReal_zero, Option.getD_some]
      simp
  · have e : ∀ w : Fin 4, fields G x w 0 = x (w, ⟨0, hG h0⟩) := fun w => by simp [fields, hG h0]
    have p0 := projectState_mean noVz δ (modeState (fields G x) 0)
    fin_cases v
    · exact (congrArg V3.x p0).trans (by split <;> exact e 0)
    · exact (congrArg V3.y p0).trans (by split <;> exact e 1)
    · exact absurd rfl hv2
    · change (projectState .none noVz (wave3 δ 0) (modeState (fields G x) 0)).b.getD 0 = _
      rw [(hv3 rfl).2]
      simp [projectState, modeState, e]

/-- C101 (ns3d.strat): without initial mean vertical velocity and mean buoyancy, and without these means in the forces, the means of the
vertical velocity and of the buoyancy stay zero, for every `N`. -/
theorem C101_no_mean_ns3d_strat (hn : ∀ d, 0 < n d) (hS : NoAlias n S) (h0 : (0 : Fin 3 → ℤ) ∈ S) (hG : S ⊆ G) {f : Option ℝ}
    (hf : f.getD 0 = 0) (N : ℝ) (noVz : Bool) (nu : Dissip.Nu) {c : Numerics (Fin 3) (Fin 4)} (hc : Proper c)
    {F : ℕ → Fin 4 → Fld (Fin 3)} (hF : ∀ m, DivFree S δ (F m 0) (F m 1) (F m 2)) {u0 : Fin 4 → Fld (Fin 3)}
    (hu : DivFree S δ (u0 0) (u0 1) (u0 2)) (hu0 : meanValue n S (u0 2) = 0 ∧ meanValue n S (u0 3) = 0)
    (hF0 : ∀ m, meanValue n S (F m 2) = 0 ∧ meanValue n S (F m 3) = 0) (k : ℕ) :
    meanValue n S (runStrat3d n S G δ f N .none noVz nu c F u0 k 2) = 0 ∧
      meanValue n S (runStrat3d n S G δ f N .none noVz nu c F u0 k 3) = 0 := by
  simp only [meanValue_eq hn hS.distinct h0] at *
  exact (stepping_stable (kept_strat hn hS h0 hG hf N noVz nu c True hF fun _ => hF0)
    (strat_array hG (fun k hk => kdot_of_divFree hu hk) fun _ => hu0) hc.dt hc.fix k 0 h0).2 ⟨trivial, rfl⟩

end

end

end Verif.Invariants
