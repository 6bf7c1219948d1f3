import Verif.Reality.Lemmas
import Verif.EndToEnd.PropsMore
import Verif.EndToEnd.PropsStrat
import Verif.EndToEnd.LemmasPlate
import Verif.Symmetry.ModelSw1l
import Verif.Symmetry.ModelPlate
import Verif.Invariants.PropsHypo

/-! # C110: the fields stay real

For each solver, all the schemes (with and without phase shifts), all the real initial fields and all the real forces. -/

set_option linter.unusedSectionVars false

namespace Verif.Reality

open Verif.Fourier Verif.Vectors Verif.Energy Verif.Schemes Verif.EndToEnd Verif.Symmetry Finset

noncomputable section

/-- The values on the grid are real exactly when opposite modes have conjugate coefficients: half of the coefficients is enough, as in the
arrays of `rfft`. -/
theorem C110_real_iff_conjugate {D V : Type*} [Fintype D] [DecidableEq D] {n : D → ℕ} {S : Finset (D → ℤ)} (hg : Grid n S) (u : V → Fld D)
    (hu : ∀ v k, k ∉ S → u v k = 0) :
    (∀ v (j : Pt n), (gridVal n S (u v) j).im = 0) ↔ ∀ v, ∀ k ∈ S, u v (-k) = (starRingEnd ℂ) (u v k) := by
  constructor
  · intro h v k hk
    have := fft_real n (x := gridVal n S (u v)) (fun j => Complex.conj_eq_iff_im.2 (h v j)) k
    rwa [fft_grid hg.pos hg.distinct _ hk, fft_grid hg.pos hg.distinct _ (hg.opposite k hk)] at this
  · intro h v j
    exact Complex.conj_eq_iff_im.1 (real_grid (fun k hk => ⟨hg.opposite k hk, h v k hk⟩) j)

/-- The phase shifts of the code, `exp(i k·α)` for a real translation `α`, are allowed. -/
theorem C110_shifts {D : Type*} [Fintype D] (α : D → ℝ) (k : D → ℤ) :
    Complex.exp (Complex.I * ((∑ d, α d * (-k) d : ℝ) : ℂ)) = (starRingEnd ℂ) (Complex.exp (Complex.I * ((∑ d, α d * k d : ℝ) : ℂ))) := by
  rw [← Complex.exp_conj, map_mul, Complex.conj_I, Complex.conj_ofReal]
  congr 1
  simp

section runs

variable {D V : Type*} [Fintype D] [DecidableEq D] [Fintype V]

theorem staysReal {n : D → ℕ} {S G : Finset (D → ℤ)} (hg : Grid n S) (hG : S ⊆ G) (δ : D → ℝ) (nu : Dissip.Nu)
    {project : Arr (V × G) → Arr (V × G)} (hp : ∀ x, HermArr S G x → HermArr S G (project x)) {tend : (V → Fld D) → V → Fld D}
    (ht : ∀ u, realPart S u = u → realPart S (tend u) = tend u) {c : Numerics D V} (hc : Proper c) :
    StaysReal n S (run S G δ nu project tend c) := fun F u0 hF h0 k =>
  (realArrays_iff hg _).2 (run_herm hG δ nu hp (fun u hu => (herm_iff hg.opposite _).2 (ht u ((herm_iff hg.opposite _).1 hu))) hc
    (fun m => (realArrays_iff hg _).1 (hF m)) ((realArrays_iff hg _).1 h0) k)

end runs

/-- ns2d. -/
theorem C110_ns2d {n : Fin 2 → ℕ} {S G : Finset (Fin 2 → ℤ)} (hg : Grid n S) (hG : S ⊆ G) (δ : Fin 2 → ℝ) (beta : ℝ) (nu : Dissip.Nu)
    {c : Numerics (Fin 2) Unit} (hc : Proper c) : StaysReal n S (runNs2d n S G δ beta nu c) :=
  staysReal hg hG δ nu (fun _ h => h) (fun _ hu => tend2d_real hg.opposite n δ beta hu) hc

/-- ns2d.strat. -/
theorem C110_ns2d_strat {n : Fin 2 → ℕ} {S G : Finset (Fin 2 → ℤ)} (hg : Grid n S) (hG : S ⊆ G) (δ : Fin 2 → ℝ) (N : ℝ) (nu : Dissip.Nu)
    {c : Numerics (Fin 2) (Fin 2)} (hc : Proper c) : StaysReal n S (runStrat2d n S G δ N nu c) :=
  staysReal hg hG δ nu (fun _ h => h) (fun _ hu => tendStrat_real hg.opposite n δ N hu) hc

/-- ns2d.bouss. -/
theorem C110_ns2d_bouss {n : Fin 2 → ℕ} {S G : Finset (Fin 2 → ℤ)} (hg : Grid n S) (hG : S ⊆ G) (δ : Fin 2 → ℝ) (nu : Dissip.Nu)
    {c : Numerics (Fin 2) (Fin 2)} (hc : Proper c) : StaysReal n S (run S G δ nu id (tendBouss n S δ) c) := by
  rw [tendBouss_eq hg.pos hg.distinct]
  exact staysReal hg hG δ nu (fun _ h => h) (fun _ hu => tendStrat_real hg.opposite n δ 0 hu) hc

/-- sw1l. -/
theorem C110_sw1l (p : Sw1l.Par) {n : Fin 2 → ℕ} {S G : Finset (Fin 2 → ℤ)} (hg : Grid n S) (hG : S ⊆ G) (nu : Dissip.Nu)
    {c : Numerics (Fin 2) (Fin 3)} (hc : Proper c) : StaysReal n S (runSw1l p n S G nu c) :=
  staysReal hg hG p.δ nu (fun _ h => h) (fun _ hu => sw1l_real hg.opposite hu) hc

/-- sw1l.modified. -/
theorem C110_sw1l_modified (p : Sw1l.Par) {n : Fin 2 → ℕ} {S G : Finset (Fin 2 → ℤ)} (hg : Grid n S) (hG : S ⊆ G) (nu : Dissip.Nu)
    {c : Numerics (Fin 2) (Fin 3)} (hc : Proper c) : StaysReal n S (runModified p n S G nu c) :=
  staysReal hg hG p.δ nu (fun _ h => h) (fun _ hu => modified_real hg.opposite hu) hc

/-- plate2d; `H` are the modes of the array `chi_fft`. -/
theorem C110_plate2d {n : Fin 2 → ℕ} {S H G : Finset (Fin 2 → ℤ)} (hg : Grid n S) (hH : ∀ k ∈ H, -k ∈ H) (hG : S ⊆ G) (δ : Fin 2 → ℝ)
    (nu : Dissip.Nu) {c : Numerics (Fin 2) (Fin 2)} (hc : Proper c) : StaysReal n S (runPlate n S H G δ nu c) := fun F u0 hF h0 k =>
  (realArrays_iff hg _).2 (stepping_herm hG (fun _ h => h)
    (fun u hu => (herm_iff hg.opposite _).2 (plate_real hg.opposite hH ((herm_iff hg.opposite _).1 hu)))
    (fun v k => by simp only [freqPlate, waveSq_opp]; split <;> simp) hc
    (fun m => (realArrays_iff hg _).1 (hF m)) ((realArrays_iff hg _).1 h0) k)

/-- burgers1d and its skew-symmetric version (`skew`). -/
theorem C110_burgers (skew : Bool) {nx : ℕ} (hn : 1 < nx) {S G : Finset (Unit → ℤ)} (h3 : ∀ k ∈ S, 3 * |k ()| < nx)
    (hg : Grid (fun _ : Unit => nx) S) (hG : S ⊆ G) (δ : ℝ) (nu : Dissip.Nu) {c : Numerics Unit Unit} (hc : Proper c) :
    StaysReal (fun _ : Unit => nx) S (run S G (fun _ => δ) nu id (tendBurgers skew nx S δ) c) := by
  have e : tendBurgers skew nx S δ = tendBurgers false nx S δ := by
    cases skew
    · rfl
    · exact tendBurgers_eq hn h3 δ
  rw [e]
  exact staysReal hg hG _ nu (fun _ h => h) (fun _ hu => burgers_real hn h3 hg.opposite δ hu) hc

theorem herm3_tend {S : Finset (Fin 3 → ℤ)} (hS : Sym S) (n : Fin 3 → ℕ) (δ : Fin 3 → ℝ) (f : Option ℝ) (p : Projection) (noVz : Bool)
    {u : Fin 3 → Fld (Fin 3)} (hu : Herm S u) : Herm S (tend3d n S δ f p noVz u) :=
  (tend3d_adm hS n δ f p noVz fun c => (hu c).1).1

theorem herm3_project {S G : Finset (Fin 3 → ℤ)} (hG : S ⊆ G) (δ : Fin 3 → ℝ) (p : Projection) (noVz : Bool) (x : Arr (Fin 3 × G))
    (hx : HermArr S G x) : HermArr S G (project3d G δ p noVz x) := by
  refine herm_array hG ?_
  have e : (components fun k => (projectState p noVz (wave3 δ k) ⟨vec (fields G x) k, none⟩).v) = projPart δ p noVz (fields G x) := by
    simp only [projectState_v]
    rfl
  rw [e]
  exact fun c => ⟨projPart_real p noVz (fun c => (hx c).1) c, projPart_out p noVz (fun c => (hx c).2) c⟩

/-- ns3d, with or without rotation, for all the projections and with or without `no_vz_kz0`. -/
theorem C110_ns3d {n : Fin 3 → ℕ} {S G : Finset (Fin 3 → ℤ)} (hg : Grid n S) (hG : S ⊆ G) (δ : Fin 3 → ℝ) (f : Option ℝ) (p : Projection)
    (noVzKz0 : Bool) (nu : Dissip.Nu) {c : Numerics (Fin 3) (Fin 3)} (hc : Proper c) :
    StaysReal n S (runNs3d n S G δ f p noVzKz0 nu c) :=
  staysReal hg hG δ nu (herm3_project hG δ p noVzKz0) (fun u hu => (herm_iff hg.opposite _).1
    (herm3_tend hg.opposite n δ f p noVzKz0 ((herm_iff hg.opposite u).2 hu))) hc

theorem herm4_project {S : Finset (Fin 3 → ℤ)} (δ : Fin 3 → ℝ) (p : Projection) (noVz : Bool) {u : Fin 4 → Fld (Fin 3)} (hu : Herm S u) :
    Herm S (components4 fun k => projectState p noVz (wave3 δ k) (modeState u k)) := by
  have hv : ∀ c, RealField S (velocity u c) := fun c => by fin_cases c <;> exact hu _
  have hp := fun c => projPart_real (δ := δ) p noVz (fun c => (hv c).1) c
  have ho := fun c => projPart_out (δ := δ) p noVz (fun c => (hv c).2) c
  have e : ∀ k, (projectState p noVz (wave3 δ k) (modeState u k)).v = vec (projPart δ p noVz (velocity u)) k := fun k => by
    rw [modeState, projectState_v]
    rfl
  intro c
  fin_cases c
  · exact ⟨real_congr (hp 0) fun k _ => congrArg V3.x (e k), fun k hk => (congrArg V3.x (e k)).trans (ho 0 k hk)⟩
  · exact ⟨real_congr (hp 1) fun k _ => congrArg V3.y (e k), fun k hk => (congrArg V3.y (e k)).trans (ho 1 k hk)⟩
  · exact ⟨real_congr (hp 2) fun k _ => congrArg V3.z (e k), fun k hk => (congrArg V3.z (e k)).trans (ho 2 k hk)⟩
  · have eb : ∀ k, (projectState p noVz (wave3 δ k) (modeState u k)).b.getD 0 = if noVz = true ∧ (wave3 δ k).z = 0 then 0 else u 3 k := fun k => by
      by_cases h : noVz = true ∧ (wave3 δ k).z = 0 <;> simp only [projectState, modeState, abs_eq_zero, h, if_true, if_false, and_self] <;> simp
    have ez : ∀ k, (wave3 δ (-k)).z = 0 ↔ (wave3 δ k).z = 0 := fun k => by simp [wave3]
    refine ⟨fun k hk => ⟨((hu 3).1 k hk).1, ?_⟩, fun k hk => ?_⟩
    · show (projectState p noVz (wave3 δ (-k)) (modeState u (-k))).b.getD 0 = (starRingEnd ℂ) ((projectState p noVz (wave3 δ k) (modeState u k)).b.getD 0)
      simp only [eb, ez]
      split
      · simp
      · exact ((hu 3).1 k hk).2
    · show (projectState p noVz (wave3 δ k) (modeState u k)).b.getD 0 = 0
      rw [eb, (hu 3).2 k hk, ite_self]

/-- The tendencies of ns3d.strat before the projection. -/
def raw4 (n : Fin 3 → ℕ) (S : Finset (Fin 3 → ℤ)) (δ : Fin 3 → ℝ) (f : Option ℝ) (N : ℝ) (u : Fin 4 → Fld (Fin 3)) : Fin 4 → Fld (Fin 3) :=
  join (fun c k => (if k ∈ S then components (lamb n S δ f (vec (velocity u))) c k else 0)
      + if k ∈ S then (![0, 0, u 3 k] : Fin 3 → ℂ) c else 0)
    (fun k => if k ∈ S then -divVb n S δ (vec (velocity u)) (u 3) k - N ^ 2 * u 2 k else 0)

theorem tend4_project (n : Fin 3 → ℕ) (S : Finset (Fin 3 → ℤ)) (δ : Fin 3 → ℝ) (f : Option ℝ) (N : ℝ) (p : Projection) (noVz : Bool)
    (u : Fin 4 → Fld (Fin 3)) : tend3dStrat n S δ f N p noVz u
      = components4 fun k => projectState p noVz (wave3 δ k) (modeState (raw4 n S δ f N u) k) := by
  unfold tend3dStrat
  congr 1
  funext k
  by_cases hk : k ∈ S
  · simp only [ns3dStrat, hk, if_true]
    congr 1
    simp [modeState, raw4, join, hk, components, velocity, vec]
    exact ⟨⟨rfl, rfl, rfl⟩, rfl⟩
  · have e : modeState (raw4 n S δ f N u) k = ⟨⟨0, 0, 0⟩, some 0⟩ := by simp [modeState, raw4, join, hk]
    rw [e]
    simp only [ns3dStrat, hk, if_false]
    have hz := projectState_v p noVz (wave3 δ k) ⟨0, 0, 0⟩ (some 0)
    rw [EndToEnd.projV_zero] at hz
    by_cases h : noVz = true ∧ |(wave3 δ k).z| = 0
    · simp only [projectState, if_pos h] at hz ⊢
      rw [hz]; simp
    · simp only [projectState, if_neg h] at hz ⊢
      rw [hz]

theorem raw4_herm {S : Finset (Fin 3 → ℤ)} (hS : Sym S) (n : Fin 3 → ℕ) (δ : Fin 3 → ℝ) (f : Option ℝ) (N : ℝ) {u : Fin 4 → Fld (Fin 3)}
    (hu : Herm S u) : Herm S (raw4 n S δ f N u) := by
  have hv : ∀ c, RealOn S (velocity u c) := fun c => by fin_cases c <;> exact (hu _).1
  have h1 : ∀ c, RealField S fun k => (if k ∈ S then components (lamb n S δ f (vec (velocity u))) c k else 0)
      + if k ∈ S then (![0, 0, u 3 k] : Fin 3 → ℂ) c else 0 := by
    refine fun c => ⟨real_add (lamb_real hS n δ f hv c) ?_, fun k hk => by simp [hk]⟩
    intro k hk
    refine ⟨hS k hk, ?_⟩
    have := ((hu 3).1 k hk).2
    fin_cases c <;> simp [hk, hS k hk, this]
  have h2 : RealField S fun k => if k ∈ S then -divVb n S δ (vec (velocity u)) (u 3) k - N ^ 2 * u 2 k else 0 := by
    refine ⟨?_, fun k hk => by simp [hk]⟩
    have h2 : RealOn S (u 2) := hv 2
    have hg := fun c j => real_grid (n := n) (hv c) j
    have hb := fun j => real_grid (n := n) (hu 3).1 j
    have hd : RealOn S fun k => divVb n S δ (vec (velocity u)) (u 3) k := by
      intro k hk
      refine ⟨hS k hk, ?_⟩
      have h0 : ∀ (q : V3 → ℂ) (_ : q = V3.x ∨ q = V3.y ∨ q = V3.z),
          fftCoef n (fun j => q (gridVec n S (vec (velocity u)) j) * gridVal n S (u 3) j) (-k)
            = (starRingEnd ℂ) (fftCoef n (fun j => q (gridVec n S (vec (velocity u)) j) * gridVal n S (u 3) j) k) := by
        rintro q (rfl | rfl | rfl) <;> refine fft_real n (fun j => ?_) k <;> rw [map_mul, hb]
        · exact congrArg (· * _) (hg 0 j)
        · exact congrArg (· * _) (hg 1 j)
        · exact congrArg (· * _) (hg 2 j)
      have hx := h0 V3.x (Or.inl rfl)
      have hy := h0 V3.y (Or.inr (Or.inl rfl))
      have hz := h0 V3.z (Or.inr (Or.inr rfl))
      simp only [divVb, fftVec, hx, hy, hz, map_mul, map_add, Complex.conj_I, Complex.conj_ofReal, wave3, Pi.neg_apply]
      push_cast
      ring
    intro k hk
    refine ⟨hS k hk, ?_⟩
    simp only [hk, hS k hk, if_true, (hd k hk).2, (h2 k hk).2, map_sub, map_neg, map_mul, map_pow, Complex.conj_ofReal]
  intro c
  fin_cases c
  · exact h1 0
  · exact h1 1
  · exact h1 2
  · exact h2

/-- ns3d.strat (and ns3d.bouss for `N = 0`), for all the projections and with or without `no_vz_kz0`. -/
theorem C110_ns3d_strat {n : Fin 3 → ℕ} {S G : Finset (Fin 3 → ℤ)} (hg : Grid n S) (hG : S ⊆ G) (δ : Fin 3 → ℝ) (f : Option ℝ) (N : ℝ)
    (p : Projection) (noVzKz0 : Bool) (nu : Dissip.Nu) {c : Numerics (Fin 3) (Fin 4)} (hc : Proper c) :
    StaysReal n S (runStrat3d n S G δ f N p noVzKz0 nu c) := by
  refine staysReal hg hG δ nu (fun x hx => herm_array hG (herm4_project δ p noVzKz0 hx)) (fun u hu => (herm_iff hg.opposite _).1 ?_) hc
  have hu' := (herm_iff hg.opposite u).2 hu
  rw [tend4_project]
  exact herm4_project δ p noVzKz0 (raw4_herm hg.opposite n δ f N hu')

/-- With a hypo-viscosity, for the solvers in two dimensions; here ns2d. -/
theorem C110_hypoviscosity {n : Fin 2 → ℕ} {S G : Finset (Fin 2 → ℤ)} (hg : Grid n S) (hG : S ⊆ G) (δ : Fin 2 → ℝ) (beta : ℝ)
    (nu : Dissip.Nu) (second : Fin 2 → ℤ) {c : Numerics (Fin 2) Unit} (hc : Proper c) :
    StaysReal n S (Invariants.runHypo S G δ nu second (tend2d n S δ beta) c) := fun F u0 hF h0 k =>
  (realArrays_iff hg _).2 (stepping_herm
    (freq := fun _ k => ((Dissip.fd nu (waveSq δ k) + Dissip.fdHypo nu (waveSq δ) (some 0) second k : ℝ) : ℂ)) hG (fun _ h => h)
    (fun u hu => (herm_iff hg.opposite _).2 (tend2d_real hg.opposite n δ beta ((herm_iff hg.opposite _).1 hu)))
    (fun v k => by
      rw [Complex.conj_ofReal, waveSq_opp]
      congr 2
      simp only [Dissip.fdHypo, Dissip.k2not0]
      split
      · simp [waveSq_opp, eq_comm (a := (0 : Fin 2 → ℤ))]
      · rfl) hc
    (fun m => (realArrays_iff hg _).1 (hF m)) ((realArrays_iff hg _).1 h0) k)

end

end Verif.Reality
