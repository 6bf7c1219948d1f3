import Verif.Reversal.Lemmas
import Verif.Symmetry.Units
import Verif.Symmetry.Sw1l

/-! # C106: the tendencies of the reversed flows -/

set_option linter.unusedSectionVars false

namespace Verif.Reversal

open Verif.Fourier Verif.Vectors Verif.Energy Verif.Galerkin Verif.Schemes Verif.EndToEnd Verif.Convergence Finset
open Verif.Symmetry (transformed newPar factorsSw)

noncomputable section

theorem transformed_flip {D V : Type*} [Fintype D] (δ : D → ℝ) (ε : V → ℝ) (u : V → Fld D) :
    transformed δ (fun _ => 0) ε u = flip ε u := by
  funext v k
  simp [transformed, flip]

theorem neg_of_units {a b : ℂ} (h : ((-1 : ℝ) : ℂ) * a = b) : a = -b := by
  rw [← h]; simp

theorem rev2d {n : Fin 2 → ℕ} (hn : ∀ d, 0 < n d) {S : Finset (Fin 2 → ℤ)} (hS : NoAlias n S) (δ : Fin 2 → ℝ) (beta : ℝ)
    (u : Unit → Fld (Fin 2)) (v : Unit) (k : Fin 2 → ℤ) :
    tend2d n S δ (-beta) (flip (fun _ => -1) u) v k = -((-1 : ℝ) : ℂ) * tend2d n S δ beta u v k := by
  have h := Symmetry.tend2d_units hn hS δ (fun _ => 0) (ℓ := 1) (τ := -1) one_ne_zero (by norm_num) beta u v k
  have e : (fun _ : Unit => (1 : ℝ) / -1) = fun _ => -1 := by funext; norm_num
  have e' : beta / (1 * -1) = -beta := by ring
  simp only [div_one] at h
  rw [e, e', transformed_flip, transformed_flip] at h
  rw [neg_of_units h]
  simp only [flip]
  ring

theorem tendStrat_neg (n : Fin 2 → ℕ) (S : Finset (Fin 2 → ℤ)) (δ : Fin 2 → ℝ) (N : ℝ) : tendStrat n S δ (-N) = tendStrat n S δ N := by
  funext u v k
  simp [tendStrat, ns2dStrat]

theorem revStrat {n : Fin 2 → ℕ} (hn : ∀ d, 0 < n d) {S : Finset (Fin 2 → ℤ)} (hS : NoAlias n S) (δ : Fin 2 → ℝ) (N : ℝ)
    (u : Fin 2 → Fld (Fin 2)) (v : Fin 2) (k : Fin 2 → ℤ) :
    tendStrat n S δ N (flip ![-1, 1] u) v k = -((![-1, 1] v : ℝ) : ℂ) * tendStrat n S δ N u v k := by
  have h := Symmetry.tendStrat_units hn hS δ (fun _ => 0) (ℓ := 1) (τ := -1) one_ne_zero (by norm_num) N u v k
  have e : (![(1 : ℝ) / -1, 1 / (-1) ^ 2] : Fin 2 → ℝ) = ![-1, 1] := by norm_num
  have e' : N / -1 = -N := by ring
  simp only [div_one] at h
  rw [e, e', tendStrat_neg, transformed_flip, transformed_flip] at h
  rw [neg_of_units h]
  simp only [flip]
  ring

theorem rev3d {n : Fin 3 → ℕ} (hn : ∀ d, 0 < n d) {S : Finset (Fin 3 → ℤ)} (hS : NoAlias n S) (δ : Fin 3 → ℝ) (f : Option ℝ)
    (p : Projection) (noVz : Bool) (u : Fin 3 → Fld (Fin 3)) (v : Fin 3) (k : Fin 3 → ℤ) :
    tend3d n S δ (f.map (-·)) p noVz (flip (fun _ => -1) u) v k = -((-1 : ℝ) : ℂ) * tend3d n S δ f p noVz u v k := by
  have h := Symmetry.tend3d_units hn hS δ (fun _ => 0) (ℓ := 1) (τ := -1) one_pos (by norm_num) f p noVz u v k
  have e : (fun _ : Fin 3 => (1 : ℝ) / -1) = fun _ => -1 := by funext; norm_num
  have e' : (fun x : ℝ => x / -1) = fun x => -x := by funext x; ring
  simp only [div_one] at h
  rw [e, e', transformed_flip, transformed_flip] at h
  rw [neg_of_units h]
  simp only [flip]
  ring

theorem tend3dStrat_neg (n : Fin 3 → ℕ) (S : Finset (Fin 3 → ℤ)) (δ : Fin 3 → ℝ) (f : Option ℝ) (N : ℝ) (p : Projection) (noVz : Bool) :
    tend3dStrat n S δ f (-N) p noVz = tend3dStrat n S δ f N p noVz := by
  funext u v k
  have e : ns3dStrat n S δ f (-N) p noVz = ns3dStrat n S δ f N p noVz := by
    funext v b k
    simp [ns3dStrat]
  simp only [tend3dStrat, e]

theorem rev3dStrat {n : Fin 3 → ℕ} (hn : ∀ d, 0 < n d) {S : Finset (Fin 3 → ℤ)} (hS : NoAlias n S) (δ : Fin 3 → ℝ) (f : Option ℝ) (N : ℝ)
    (p : Projection) (noVz : Bool) (u : Fin 4 → Fld (Fin 3)) (v : Fin 4) (k : Fin 3 → ℤ) :
    tend3dStrat n S δ (f.map (-·)) N p noVz (flip ![-1, -1, -1, 1] u) v k
      = -((![-1, -1, -1, 1] v : ℝ) : ℂ) * tend3dStrat n S δ f N p noVz u v k := by
  have h := Symmetry.tend3dStrat_units hn hS δ (fun _ => 0) (ℓ := 1) (τ := -1) one_pos (by norm_num) f N p noVz u v k
  have e : (![(1 : ℝ) / -1, 1 / -1, 1 / -1, 1 / (-1) ^ 2] : Fin 4 → ℝ) = ![-1, -1, -1, 1] := by norm_num
  have e' : (fun x : ℝ => x / -1) = fun x => -x := by funext x; ring
  have e2 : N / -1 = -N := by ring
  simp only [div_one] at h
  rw [e, e', e2, tend3dStrat_neg, transformed_flip, transformed_flip] at h
  rw [neg_of_units h]
  simp only [flip]
  ring

theorem newPar_neg (p : Sw1l.Par) : newPar 1 (-1) p = oppositeRotation p := by
  simp [newPar, oppositeRotation, div_neg]

theorem factors_neg : factorsSw 1 (-1) = ![-1, -1, 1] := by simp [factorsSw]

theorem revSw1l {n : Fin 2 → ℕ} (hn : ∀ d, 0 < n d) {S : Finset (Fin 2 → ℤ)} (hS : NoAlias n S) (p : Sw1l.Par)
    (u : Fin 3 → Fld (Fin 2)) (v : Fin 3) (k : Fin 2 → ℤ) :
    tendSw1l (oppositeRotation p) n S (flip ![-1, -1, 1] u) v k = -((![-1, -1, 1] v : ℝ) : ℂ) * tendSw1l p n S u v k := by
  have h := Symmetry.tendSw1l_units hn hS p (fun _ => 0) (ℓ := 1) (τ := -1) one_ne_zero (by norm_num) u v k
  rw [newPar_neg, factors_neg, transformed_flip, transformed_flip] at h
  rw [neg_of_units h]
  simp only [flip]
  ring

theorem revModified {n : Fin 2 → ℕ} (hn : ∀ d, 0 < n d) {S : Finset (Fin 2 → ℤ)} (hS : NoAlias n S) {p : Sw1l.Par} (hδ : ∀ d, p.δ d ≠ 0)
    (u : Fin 3 → Fld (Fin 2)) (v : Fin 3) (k : Fin 2 → ℤ) :
    tendModified (oppositeRotation p) n S (flip ![-1, -1, 1] u) v k = -((![-1, -1, 1] v : ℝ) : ℂ) * tendModified p n S u v k := by
  have h := Symmetry.tendModified_units hn hS p hδ (fun _ => 0) (ℓ := 1) (τ := -1) one_ne_zero (by norm_num) u v k
  rw [newPar_neg, factors_neg, transformed_flip, transformed_flip] at h
  rw [neg_of_units h]
  simp only [flip]
  ring

theorem revPlate (n : Fin 2 → ℕ) (S H : Finset (Fin 2 → ℤ)) (δ : Fin 2 → ℝ) (u : Fin 2 → Fld (Fin 2)) (v : Fin 2) (k : Fin 2 → ℤ) :
    tendPlate n S H δ (flip ![-1, 1] u) v k = -((![-1, 1] v : ℝ) : ℂ) * tendPlate n S H δ u v k := by
  by_cases hk : k ∈ S
  · have e : flip ![-1, 1] u 1 = u 1 := by funext k; simp [flip]
    fin_cases v
    · simp only [Fin.zero_eta]
      rw [plate_w hk, plate_w hk, e]
      simp
    · simp only [Fin.mk_one]
      rw [plate_z hk, plate_z hk]
      simp [flip]
  · rw [plate_out _ _ _ hk, plate_out _ _ _ hk, mul_zero]

theorem revBurgers {nx : ℕ} (hn : 1 < nx) {S : Finset (Unit → ℤ)} (h3 : ∀ k ∈ S, 3 * |k ()| < nx) (δ : ℝ) (u : Unit → Fld Unit) (v : Unit)
    (k : Unit → ℤ) :
    tendBurgers false nx S δ (flip (fun _ => -1) u) v k = -((-1 : ℝ) : ℂ) * tendBurgers false nx S δ u v k := by
  by_cases hk : k ∈ S
  · have h := fun a => (C57_burgers (by omega) (burgers_noAlias h3) δ a (burgers_kept hn h3 hk)).1
    simp only [tendBurgers, Bool.false_eq_true, if_false, h]
    simp [advect, exactProduct, pd, flip]
  · have : ¬ Burgers.kept nx S k := fun h => hk h.1
    simp [tendBurgers, Burgers.convective, this]

theorem signs_one {V : Type*} : Signs fun _ : V => (-1 : ℝ) := fun _ => Or.inr rfl

theorem signs2 : Signs (![-1, 1] : Fin 2 → ℝ) := fun v => by fin_cases v <;> simp

theorem signs3 : Signs (![-1, -1, 1] : Fin 3 → ℝ) := fun v => by fin_cases v <;> simp

theorem signs4 : Signs (![-1, -1, -1, 1] : Fin 4 → ℝ) := fun v => by fin_cases v <;> simp

/-- The general case, with the dissipation of the documented equations (which is zero). -/
theorem simulationsReturn {D V : Type*} [Fintype D] [DecidableEq (D → ℤ)] [Fintype V] {S : Finset (D → ℤ)} {δ : D → ℝ}
    {tend tend' : (V → Fld D) → V → Fld D}
    (hsmooth : ∀ (G : Finset (D → ℤ)) (m : ℕ) v k, ContDiff ℝ m fun a : Arr (V × G) => tend (fields G a) v k)
    (hsmooth' : ∀ (G : Finset (D → ℤ)) (m : ℕ) v k, ContDiff ℝ m fun a : Arr (V × G) => tend' (fields G a) v k)
    (htend : ∀ u v k, k ∉ S → tend u v k = 0) (htend' : ∀ u v k, k ∉ S → tend' u v k = 0) {ε : V → ℝ} (hε : Signs ε)
    (hrev : ∀ u v k, tend' (flip ε u) v k = -(ε v : ℂ) * tend u v k) {F F' : V → Fld D} (hF : ∀ v k, k ∉ S → F v k = 0)
    (hF' : ∀ v k, F' v k = -(ε v : ℂ) * F v k) {T : ℝ} (hT : 0 ≤ T) {u : ℝ → V → Fld D}
    (hm : ∀ t ∈ Set.Icc 0 T, ∀ v k, k ∉ S → u t v k = 0)
    (hu : ∀ t ∈ Set.Icc 0 T, ∀ v, ∀ k ∈ S,
      HasDerivAt (fun t => u t v k) (forced F tend (u t) v k - dissipation δ inviscid (u t v) k) t) :
    SimulationsReturn S δ ε (forced F tend) (forced F' tend') T (u 0) := by
  intro G hG c hc ps pa pb ps' pa' pb' heap heap' g1 g2 g1' g2' cfl
  have e : F' = fun v k => -(ε v : ℂ) * F v k := funext fun v => funext fun k => hF' v k
  exact returns_of_solution (freq := freqVisc δ inviscid) (fun v k => freq_inviscid δ v k) (smooth_forced hsmooth F) (smooth_forced hsmooth' F')
    (forced_out htend hF) (forced_out htend' fun v k hk => by rw [hF', hF v k hk, mul_zero]) hε
    (by rw [e]; exact forced_rev hrev F) hT hm
    (fun t ht v k hk => (hu t ht v k hk).congr_deriv (by rw [freq_inviscid, dissipation_inviscid, zero_mul])) hG hc ps pa pb ps' pa' pb'
    heap heap' g1 g2 g1' g2' cfl

/-- The projections do not change the admissible states. -/
theorem return3d {V : Type*} [Fintype V] {S : Finset (Fin 3 → ℤ)} {δ : Fin 3 → ℝ} {ε : V → ℝ}
    {tend tend' : (V → Fld (Fin 3)) → V → Fld (Fin 3)} {T : ℝ} {u0 : V → Fld (Fin 3)}
    (hret : SimulationsReturn S δ ε tend tend' T u0) (Q : (V → Fld (Fin 3)) →ₗ[ℝ] (V → Fld (Fin 3)))
    (hQS : ∀ u v k, k ∉ S → Q u v k = 0) (hQt : ∀ u, Q u = u → Q (tend u) = tend u) (hQt' : ∀ u, Q u = u → Q (tend' u) = tend' u)
    (hQf : ∀ (g : (Fin 3 → ℤ) → ℝ), (∀ k, g (-k) = g k) → ∀ u, Q u = u → Q (fun v k => (g k : ℂ) * u v k) = fun v k => (g k : ℂ) * u v k)
    (hQε : ∀ u, Q u = u → Q (flip ε u) = flip ε u)
    {project : (G : Finset (Fin 3 → ℤ)) → Arr (V × G) → Arr (V × G)}
    (hp : ∀ G : Finset (Fin 3 → ℤ), S ⊆ G → ∀ a, Q (fields G a) = fields G a → project G a = a) (hu0 : Q u0 = u0) :
    SimulationsReturn3d S δ ε project tend tend' T u0 := by
  intro G hG c hc ps pa pb ps' pa' pb' heap heap' g1 g2 g1' g2' cfl
  obtain ⟨C, h0c, hpos, hC⟩ := hret G hG c hc ps pa pb ps' pa' pb' heap heap' g1 g2 g1' g2' cfl
  refine ⟨C, h0c, hpos, fun h dt dt' hh hdt hdt' hcst k k' hk hk' => ?_⟩
  let W : Submodule ℝ (Arr (V × G)) := LinearMap.eqLocus (Q ∘ₗ fieldsL G) (fieldsL G)
  have hW : ∀ a, a ∈ W ↔ Q (fields G a) = fields G a := fun a => Iff.rfl
  have hout : ∀ {u}, Q u = u → ∀ c k, k ∉ S → u c k = 0 := fun {u} hu c k hk => by rw [← hu]; exact hQS u c k hk
  have hWarr : ∀ {u}, Q u = u → array G u ∈ W := fun {u} hu => by
    rw [hW, fields_array hG (hout hu)]
    exact hu
  have hE : ∀ (τ : ℝ), ∀ a ∈ W, expLin (freqDiss G δ inviscid) (τ : ℂ) * a ∈ W := fun τ a ha => by
    have ha' := (hW a).1 ha
    have e : fields G (expLin (freqDiss G δ inviscid) (τ : ℂ) * a)
        = fun c k => (Real.exp (-τ * Dissip.fd inviscid (waveSq δ k)) : ℂ) * fields G a c k := by
      funext c k
      by_cases hk : k ∈ G
      · simp [fields, hk, expLin, freqDiss]
      · simp [fields, hk]
    rw [hW, e]
    refine hQf (fun k => Real.exp (-τ * Dissip.fd inviscid (waveSq δ k))) (fun k => ?_) _ ha'
    rw [waveSq_neg]
  have hmask : ∀ a ∈ W, ∀ i, truncated G S i = true → a i = 0 := fun a ha i hi => by
    have := hout ((hW a).1 ha) i.1 i.2.1 (by simpa [truncated] using hi)
    simpa [fields] using this
  have hproj : ∀ a ∈ W, project G a = a := fun a ha => hp G hG a ((hW a).1 ha)
  have key := simulation3d_eq (W := W) (N := onArrays G tend) (f := freqDiss G δ inviscid) (mask := truncated G S) (project := project G)
    (fun a ha => hWarr (hQt _ ((hW a).1 ha))) hE hmask hproj hc ps pa pb heap g1 g2 cfl (u0 := array G u0) (hWarr hu0) dt
    (fun k => (hdt k).1) (fun hf => (hcst hf).1) k
  have key' := simulation3d_eq (W := W) (N := onArrays G tend') (f := freqDiss G δ inviscid) (mask := truncated G S) (project := project G)
    (fun a ha => hWarr (hQt' _ ((hW a).1 ha))) hE hmask hproj hc ps' pa' pb' heap' g1' g2' cfl
    (u0 := flipArr ε ((simulation c.1 (onArrays G tend) (freqDiss G δ inviscid) (truncated G S) ps pa pb heap g1 g2 cfl (array G u0) dt
      k).heap .state))
    (by rw [hW, fields_flip]; exact hQε _ ((hW _).1 key.2)) dt' (fun k => (hdt' k).1) (fun hf => (hcst hf).2) k'
  beta_reduce
  rw [key.1, key'.1]
  exact hC h dt dt' hh hdt hdt' hcst k k' hk hk'

/-- The simulations of plate2d have no dissipation either. -/
theorem freqPlate_inviscid (δ : Fin 2 → ℝ) (v : Fin 2) (k : Fin 2 → ℤ) : freqPlate δ inviscid v k = 0 := by
  rw [freqPlate, fd_eq inviscid_ok]
  simp [inviscid]

end

end Verif.Reversal
