import Verif.SpatialMeans.ModelForce
import Verif.SpatialMeans.PropsSw1l
import Verif.Sw1l.Props

/-! # C59: the force used for the injection rates of the shallow-water solvers -/

namespace Verif.SpatialMeans

open Verif.Fourier Verif.Energy Verif.Vectors Verif.SpectBudget Verif.Galerkin Verif.Sw1l Finset

set_option linter.unusedSectionVars false

noncomputable section

/-- One time step with the force alone, on the variables of the state: `s + τ F`. -/
def kickQA (τ : ℝ) (s F : Mode → QA) : Mode → QA := fun k =>
  ⟨(s k).q + τ * (F k).q, (s k).ap + τ * (F k).ap, (s k).am + τ * (F k).am⟩

theorem invLap_lin (p : Par) (k : Mode) (a b : ℂ) (τ : ℝ) :
    invLap p k (a + τ * b) = invLap p k a + τ * invLap p k b := by
  simp only [invLap]; split_ifs <;> ring

theorem uEtaFrom_lin (p : Par) (k : Mode) (s F : QA) (τ : ℝ) :
    uEtaFrom p k ⟨s.q + τ * F.q, s.ap + τ * F.ap, s.am + τ * F.am⟩
      = ⟨(uEtaFrom p k s).ux + τ * (uEtaFrom p k F).ux, (uEtaFrom p k s).uy + τ * (uEtaFrom p k F).uy,
        (uEtaFrom p k s).eta + τ * (uEtaFrom p k F).eta⟩ := by
  by_cases hk : k = 0
  · simp only [uEtaFrom, hk, if_true, fromA, fromQ, etaFromA, invLap, UEta.mk.injEq]
    refine ⟨by ring, by ring, by split_ifs <;> simp⟩
  · by_cases hf : p.f = 0
    · simp only [uEtaFrom, if_neg hk, fromA, fromQ, etaFromA, hf, if_true, divFromApAm, vecFromDiv,
        Forcing.vecFromRot, invLap, UEta.mk.injEq]
      refine ⟨by ring, by ring, by ring⟩
    · simp only [uEtaFrom, if_neg hk, fromA, fromQ, etaFromA, if_neg hf, divFromApAm, vecFromDiv,
        Forcing.vecFromRot, invLap, UEta.mk.injEq]
      refine ⟨by ring, by ring, by ring⟩

theorem swOf_kick (p : Par) (s F : Mode → QA) (τ : ℝ) :
    swOf p (kickQA τ s F) = kickSw τ (swOf p s) (forceQA p F) := by
  simp only [swOf, kickQA, kickSw, forceQA, Sw.mk.injEq]
  refine ⟨?_, ?_, ?_⟩ <;> (funext k; rw [uEtaFrom_lin]; rfl)

/-- **C59 (sw1l.exactlin)**: the injection rates saved for a force on the normal modes are those of
the change of the state by this force: in one time step it gives the energy `deltat * PA_tot`, and
it gives kinetic energy at the rate `PK1`. (Missing: `PK2`, see `C59_sw1l_injection_violated`.) -/
theorem C59_exactlin_injection_partial {n : Fin 2 → ℕ} {S : Finset (Fin 2 → ℤ)} (p : Par)
    (fd fdHypo : (Fin 2 → ℤ) → ℝ) (dt : ℝ) (s F : Mode → QA) (hs : RealSw S (swOf p s))
    (hF : RealSw S (swOf p F)) :
    let M := fun s => swMeans n S p.δ p.c2 fd fdHypo dt (swOf p s) (forceQA p F)
    (M (kickQA dt s F)).EA - (M s).EA = dt * (M s).PA.tot ∧
      HasDerivAt (fun τ => (M (kickQA τ s F)).EK) (M s).PK.p1 0 := by
  have h := C59_sw1l_injection_partial (n := n) p.δ p.c2 fd fdHypo dt hs (F := forceQA p F) hF
  simp only [swOf_kick]
  exact ⟨h.1, h.2.1⟩

/-- **C59 (state in vorticity and divergence)**: the force used has the vorticity, the divergence
and the height which are forced, for every non-zero wavenumber. -/
theorem C59_rotdiv_force (p : Par) (h : p.Ok) (rot div eta : Fld (Fin 2)) {k : Mode} (hk : k ≠ 0) :
    let F := forceRotDiv p rot div eta
    rotOf p k (F.ux k) (F.uy k) = rot k ∧ divOf p k (F.ux k) (F.uy k) = div k ∧ F.eta k = eta k := by
  have hK : (p.kx k : ℂ) ^ 2 + (p.ky k : ℂ) ^ 2 ≠ 0 := by
    have := (h.k2_pos hk).ne'; unfold Par.k2 at this; exact_mod_cast this
  simp only [forceRotDiv, rotOf, divOf, Forcing.vecFromRot, vecFromDiv, h.k2not0 hk, Par.k2]
  push_cast
  refine ⟨?_, ?_, trivial⟩ <;> (field_simp; ring_nf; simp only [Complex.I_sq]; ring)

/-- **C59 (sw1l.onlywaves)**, the part which holds: the force used is the force on the primitive
variables if the forces on the two waves are equal and do not act on the mean; in general its
vorticity and its height are right. (Missing: its divergence, see
`C59_onlywaves_injection_violated`.) -/
theorem C59_onlywaves_force_partial (p : Par) (h : p.Ok) (ap am : Fld (Fin 2)) {k : Mode}
    (hk : k ≠ 0) :
    let F := forceWaves p ap am
    let G := swOf p fun k => ⟨0, ap k, am k⟩
    rotOf p k (F.ux k) (F.uy k) = rotOf p k (G.ux k) (G.uy k) ∧ F.eta k = G.eta k ∧
      (ap k = am k → F.ux k = G.ux k ∧ F.uy k = G.uy k) := by
  have hK : (p.kx k : ℂ) ^ 2 + (p.ky k : ℂ) ^ 2 ≠ 0 := by
    have := (h.k2_pos hk).ne'; unfold Par.k2 at this; exact_mod_cast this
  have e : ∀ a : ℂ, rotOf p k (vecFromDiv p k a).1 (vecFromDiv p k a).2 = 0 := by
    intro a; simp only [rotOf, vecFromDiv]; ring
  simp only [forceWaves, swOf, uEtaFrom, if_neg hk, fromQ, invLap, Forcing.vecFromRot]
  refine ⟨?_, by simp, ?_⟩
  · simp only [fromA, Forcing.vecFromRot, rotOf, vecFromDiv]
    ring
  · intro ha
    simp [fromA, Forcing.vecFromRot, divFromApAm, ha, vecFromDiv]

/-- **C59 (sw1l.onlywaves), violated**: the force used for the injection rates has no divergent
part. When the forces on the two waves are opposite, the saved injection rates are zero for every
state; and there is such a force which gives energy to a fluid at rest. -/
theorem C59_onlywaves_injection_violated :
    (∀ (p : Par) (n : Fin 2 → ℕ) (S : Finset (Fin 2 → ℤ)) (fd fdHypo : (Fin 2 → ℤ) → ℝ) (dt : ℝ)
      (ap am : Fld (Fin 2)) (s : Sw), (∀ k, am k = -ap k) →
        let M := swMeans n S p.δ p.c2 fd fdHypo dt s (forceWaves p ap am)
        M.PK.tot = 0 ∧ M.PA.tot = 0) ∧
      ∃ (p : Par) (n : Fin 2 → ℕ) (S : Finset (Fin 2 → ℤ)) (ap am : Fld (Fin 2)), p.Ok ∧
        (∀ d, 0 < n d) ∧ Distinct n S ∧ (∀ k, am k = -ap k) ∧
        let F : Mode → QA := fun k => ⟨0, ap k, am k⟩
        RealSw S (swOf p F) ∧ ∀ fd fdHypo,
          let M := fun s => swMeans n S p.δ p.c2 fd fdHypo 1 (swOf p s) (forceWaves p ap am)
          (M (kickQA 1 (fun _ => ⟨0, 0, 0⟩) F)).EK - (M fun _ => ⟨0, 0, 0⟩).EK = 1 := by
  constructor
  · intro p n S fd fdHypo dt ap am s h
    have e : forceWaves p ap am = ⟨fun _ => 0, fun _ => 0, fun _ => 0⟩ := by
      simp [forceWaves, h, fromA, etaFromA, invLap, Forcing.vecFromRot]
    have g : ∀ j : Pt n, gridVal n S (fun _ => (0 : ℂ)) j = 0 := by intro j; simp [gridVal]
    rw [e]
    simp [swMeans, innerProd, forceFluxFft, prodFft, g, fftCoef]
  · let S : Finset (Fin 2 → ℤ) := {![1, 0], ![-1, 0]}
    let n : Fin 2 → ℕ := fun _ => 4
    let p : Par := ⟨fun _ => 1, 0, 1⟩
    let ap : Fld (Fin 2) := fun k => (k 0 : ℂ) / 2
    let am : Fld (Fin 2) := fun k => -ap k
    have hp : p.Ok := ⟨fun _ => one_ne_zero, one_pos⟩
    have hneg : ∀ k ∈ S, -k ∈ S := by decide
    have hn : ∀ d, 0 < n d := fun _ => by norm_num [n]
    have hD : Distinct n S := (noAlias_of_small n S (by decide)).2
    have hv : ∀ k ∈ S, uEtaFrom p k ⟨0, ap k, am k⟩ = ⟨1, 0, 0⟩ := by
      intro k hk
      have h0 : k ≠ 0 := by rintro rfl; revert hk; decide
      have h1 : (k 0 : ℂ) ^ 2 = 1 ∧ k 1 = 0 ∧ (k 0 : ℝ) ^ 2 = 1 := by
        rcases (by simpa [S] using hk : k = ![1, 0] ∨ k = ![-1, 0]) with rfl | rfl <;> simp
      have e := uEtaFrom_ne hp h0 ⟨0, ap k, am k⟩
      simp only [] at e
      rw [e]
      have hk2 : p.k2 k = 1 := by simp [p, Par.k2, Par.kx, Par.ky, h1.2.1, h1.2.2]
      have hκ : p.kappaOverIc k = -Complex.I := by
        simp [Par.kappaOverIc, hk2, Par.kd2, p]
      simp only [hk2, hκ]
      have hkx : (p.kx k : ℂ) = k 0 := by simp [p, Par.kx]
      have hky : (p.ky k : ℂ) = 0 := by simp [p, Par.ky, h1.2.1]
      simp only [hkx, hky, ap, am]
      ext
      · simp [p]
        field_simp
        linear_combination h1.1
      · simp [p]
      · simp [p]
    let F : Mode → QA := fun k => ⟨0, ap k, am k⟩
    have hr : RealSw S (swOf p F) := by
      refine ⟨fun k hk => ⟨hneg k hk, ?_⟩, fun k hk => ⟨hneg k hk, ?_⟩, fun k hk => ⟨hneg k hk, ?_⟩⟩ <;>
      simp [swOf, F, hv k hk, hv (-k) (hneg k hk)]
    refine ⟨p, n, S, ap, am, hp, hn, hD, fun _ => rfl, hr, fun fd fdHypo => ?_⟩
    have e1 : swOf p (kickQA 1 (fun _ => ⟨0, 0, 0⟩) fun k => ⟨0, ap k, am k⟩) = swOf p F := by
      simp [swOf, kickQA, F]
    have e0 : swOf p (fun _ => ⟨0, 0, 0⟩) = ⟨fun _ => 0, fun _ => 0, fun _ => 0⟩ := by
      simp [swOf, uEtaFrom, fromA, fromQ, etaFromA, invLap, Forcing.vecFromRot, divFromApAm, vecFromDiv]
    have r0 : RealSw S (⟨fun _ => 0, fun _ => 0, fun _ => 0⟩ : Sw) :=
      ⟨fun k hk => ⟨hneg k hk, by simp⟩, fun k hk => ⟨hneg k hk, by simp⟩,
        fun k hk => ⟨hneg k hk, by simp⟩⟩
    have hz : ∀ j : Pt n, phys n S (fun _ => (0 : ℂ)) j = 0 := by intro j; simp [phys, gridVal]
    have hc : ∀ a b : Fld (Fin 2), (∀ k ∈ S, a k = b k) → ∀ j : Pt n, phys n S a j = phys n S b j := by
      intro a b h j
      simp only [phys, gridVal]
      rw [sum_congr rfl fun k hk => by rw [h k hk]]
    simp only [e1, e0]
    rw [swEK _ _ fd fdHypo 1 _ hr, swEK _ _ fd fdHypo 1 _ r0]
    have h1 := hc (swOf p F).uy (fun _ => 0) fun k hk => by simp [swOf, F, hv k hk]
    have h2 := hc (swOf p F).eta (fun _ => 0) fun k hk => by simp [swOf, F, hv k hk]
    have h3 : gridMean n (fun j => phys n S (swOf p F).ux j ^ 2) = 2 := by
      rw [← sumSq_mean hn hD hr.1, sum_congr rfl fun k hk => by
        rw [show (swOf p F).ux k = 1 by simp [swOf, F, hv k hk]]]
      rw [show S = {![1, 0], ![-1, 0]} from rfl, sum_pair (by decide)]
      norm_num
    have h4 : gridMean n (fun j => (1 + phys n S (swOf p F).eta j)
        * (phys n S (swOf p F).ux j ^ 2 + phys n S (swOf p F).uy j ^ 2) / 2) = 1 := by
      trans gridMean n (fun j => phys n S (swOf p F).ux j ^ 2) / 2
      · rw [← gridMean_div]
        exact gridMean_congr n fun j => by rw [h1, h2, hz]; ring
      · rw [h3]; norm_num
    rw [h4]
    simp [hz, gridMean]

/-- The hypotheses of `C59_exactlin_injection_partial` are met by a non-zero state and a non-zero
force on the waves. -/
example : ∃ (p : Par) (S : Finset (Fin 2 → ℤ)) (F : Mode → QA), p.Ok ∧ RealSw S (swOf p F) ∧
    ∃ k ∈ S, F k ≠ ⟨0, 0, 0⟩ := by
  obtain ⟨p, n, S, ap, am, hp, hn, hD, ha, hr, hE⟩ := C59_onlywaves_injection_violated.2
  refine ⟨p, S, _, hp, hr, ?_⟩
  by_contra hc
  push Not at hc
  have h := hE (fun _ => 0) (fun _ => 0)
  have e : ∀ k ∈ S, kickQA 1 (fun _ => ⟨0, 0, 0⟩) (fun k => ⟨0, ap k, am k⟩) k = ⟨0, 0, 0⟩ := by
    intro k hk
    have := hc k hk
    simp only [QA.mk.injEq] at this
    simp [kickQA, this.2.1, this.2.2]
  have hc : ∀ a b : Mode → QA, (∀ k ∈ S, a k = b k) → ∀ F, (swMeans n S p.δ p.c2 (fun _ => 0)
      (fun _ => 0) 1 (swOf p a) F).EK = (swMeans n S p.δ p.c2 (fun _ => 0) (fun _ => 0) 1
        (swOf p b) F).EK := by
    intro a b hab F
    have hg : ∀ a' b' : Fld (Fin 2), (∀ k ∈ S, a' k = b' k) → gridVal n S a' = gridVal n S b' := by
      intro a' b' h'
      funext j
      simp only [gridVal]
      exact sum_congr rfl fun k hk => by rw [h' k hk]
    have gx := hg (swOf p a).ux (swOf p b).ux fun k hk => by simp [swOf, hab k hk]
    have gy := hg (swOf p a).uy (swOf p b).uy fun k hk => by simp [swOf, hab k hk]
    have ge := hg (swOf p a).eta (swOf p b).eta fun k hk => by simp [swOf, hab k hk]
    simp only [swMeans, fluxFft, gx, gy, ge]
    refine sum_congr rfl fun k hk => ?_
    simp [swOf, hab k hk]
  simp only [] at h
  rw [hc _ (fun _ => ⟨0, 0, 0⟩) e, sub_self] at h
  exact zero_ne_one h

end

end Verif.SpatialMeans
