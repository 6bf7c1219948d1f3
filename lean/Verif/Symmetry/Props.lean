import Verif.Symmetry.Units

/-! # C95: the results of the runs do not depend on the origin and on the units -/

set_option linter.unusedSectionVars false

namespace Verif.Symmetry

open Verif.Fourier Verif.Vectors Verif.Energy Verif.Galerkin Verif.Schemes Verif.EndToEnd Finset

noncomputable section

variable {D V : Type*} [Fintype D] [DecidableEq D]

/-- C95, meaning of `transformed`: with lengths multiplied by `ℓ`, the value of the new field at the point `x` is `a` times the value of
the old field at the point `x / ℓ + s`. -/
theorem C95_transformed (S : Finset (D → ℤ)) (δ s : D → ℝ) {ℓ : ℝ} (hℓ : ℓ ≠ 0) (a : V → ℝ) (u : V → Fld D) (v : V) (x : D → ℝ) :
    value S (fun d => δ d / ℓ) (transformed δ s a u v) x = a v * value S δ (u v) fun d => x d / ℓ + s d := by
  simp only [value, transformed, mul_sum]
  refine sum_congr rfl fun k _ => ?_
  have : Complex.exp (Complex.I * ((∑ d, δ d * k d * (x d / ℓ + s d) : ℝ) : ℂ))
      = Complex.exp (Complex.I * ((∑ d, δ d * k d * s d : ℝ) : ℂ)) * Complex.exp (Complex.I * ((∑ d, δ d / ℓ * k d * x d : ℝ) : ℂ)) := by
    rw [← Complex.exp_add, ← mul_add, ← Complex.ofReal_add, ← sum_add_distrib]
    congr 3
    exact sum_congr rfl fun d _ => by ring
  rw [this]
  ring

theorem related_units {τ : ℝ} {c c' : Numerics D V} (h : SameNumerics τ c c') (δ s : D → ℝ) (a : V → ℝ) :
    c.Related (unitsMap δ s a) τ c' := by
  refine ⟨h.1, h.2.1, funext h.2.2.1, fun w q i hi j => ?_⟩
  simp only [unitsMap, Option.some.injEq] at hi
  rw [← hi]
  exact h.2.2.2 j q

theorem force_units {τ : ℝ} (hτ : τ ≠ 0) (δ s : D → ℝ) (a : V → ℝ) (F : V → Fld D) (w : V) (q : D → ℤ) :
    τ * transformed δ s (fun v => a v / τ) F w q = transformed δ s a F w q := by
  have hc : (τ : ℂ) ≠ 0 := by exact_mod_cast hτ
  simp only [transformed]
  push_cast
  field_simp

theorem run_units {S G : Finset (D → ℤ)} (δ s : D → ℝ) {ℓ τ : ℝ} (hℓ : 0 < ℓ) (hτ : 0 < τ) (a : V → ℝ) {nu : Dissip.Nu}
    {P P' : (V → Fld D) → V → Fld D} (hP : ∀ u, P' (transformed δ s a u) = transformed δ s a (P u))
    {project project' : Arr (V × G) → Arr (V × G)} (hp : project = onArrays G P) (hp' : project' = onArrays G P')
    {tend tend' : (V → Fld D) → V → Fld D} (ht : ∀ u w q, τ * tend' (transformed δ s a u) w q = transformed δ s a (tend u) w q)
    {c c' : Numerics D V} (hc : SameNumerics τ c c') (hdt : ∀ k, c.dt k ≠ 0) (F : ℕ → V → Fld D) (u0 : V → Fld D) (k : ℕ) :
    run S G (fun d => δ d / ℓ) (newNu ℓ τ nu) project' tend' c' (fun m => transformed δ s (fun v => a v / τ) (F m)) (transformed δ s a u0) k
      = transformed δ s a (run S G δ nu project tend c F u0 k) := by
  refine run_map (unitsMap δ s a) hτ.ne' (fun w q i hi => ?_) (fun w q i hi => ?_) (fun w q i hi => ?_) (P := P) (P' := P') hP hp hp' ht
    (related_units hc δ s a) hdt (fun j w q => force_units hτ.ne' δ s a (F j) w q) u0 k
  all_goals
    simp only [unitsMap, Option.some.injEq] at hi
    rw [← hi]
  exact fd_units hℓ hτ nu δ q

theorem id_onArrays (G : Finset (D → ℤ)) : (id : Arr (V × G) → Arr (V × G)) = onArrays G id := by
  funext a
  simp only [onArrays, id]
  exact (array_fields G a).symm

/-- C95 (ns2d): take the point `s` as the origin, multiply the lengths by `ℓ` and the times by `τ`. Then the vorticity computed by ns2d is
the old one with this origin, divided by `τ`, whatever the scheme, the number of steps and the contents of the arrays. With `ℓ = τ = 1`:
the runs commute with the translations, even those which are not a number of grid points. -/
theorem C95_ns2d {n : Fin 2 → ℕ} (hn : ∀ d, 0 < n d) {S : Finset (Fin 2 → ℤ)} (hS : NoAlias n S) (G : Finset (Fin 2 → ℤ))
    (δ s : Fin 2 → ℝ) {ℓ τ : ℝ} (hℓ : 0 < ℓ) (hτ : 0 < τ) (beta : ℝ) (nu : Dissip.Nu) {c c' : Numerics (Fin 2) Unit}
    (hc : SameNumerics τ c c') (hdt : ∀ k, c.dt k ≠ 0) (F : ℕ → Unit → Fld (Fin 2)) (rot0 : Unit → Fld (Fin 2)) (k : ℕ) :
    runNs2d n S G (fun d => δ d / ℓ) (beta / (ℓ * τ)) (newNu ℓ τ nu) c' (fun m => transformed δ s (fun _ => 1 / τ / τ) (F m))
        (transformed δ s (fun _ => 1 / τ) rot0) k
      = transformed δ s (fun _ => 1 / τ) (runNs2d n S G δ beta nu c F rot0 k) :=
  run_units δ s hℓ hτ (fun _ => 1 / τ) (P := id) (P' := id) (fun _ => rfl) (id_onArrays G) (id_onArrays G)
    (tend2d_units hn hS δ s hℓ.ne' hτ.ne' beta) hc hdt F rot0 k

/-- C95 (ns2d.strat): the buoyancy is multiplied by `ℓ / τ²`. -/
theorem C95_ns2d_strat {n : Fin 2 → ℕ} (hn : ∀ d, 0 < n d) {S : Finset (Fin 2 → ℤ)} (hS : NoAlias n S) (G : Finset (Fin 2 → ℤ))
    (δ s : Fin 2 → ℝ) {ℓ τ : ℝ} (hℓ : 0 < ℓ) (hτ : 0 < τ) (N : ℝ) (nu : Dissip.Nu) {c c' : Numerics (Fin 2) (Fin 2)}
    (hc : SameNumerics τ c c') (hdt : ∀ k, c.dt k ≠ 0) (F : ℕ → Fin 2 → Fld (Fin 2)) (u0 : Fin 2 → Fld (Fin 2)) (k : ℕ) :
    runStrat2d n S G (fun d => δ d / ℓ) (N / τ) (newNu ℓ τ nu) c' (fun m => transformed δ s ![1 / τ ^ 2, ℓ / τ ^ 3] (F m))
        (transformed δ s ![1 / τ, ℓ / τ ^ 2] u0) k
      = transformed δ s ![1 / τ, ℓ / τ ^ 2] (runStrat2d n S G δ N nu c F u0 k) := by
  have e : (fun v => ![1 / τ, ℓ / τ ^ 2] v / τ) = ![1 / τ ^ 2, ℓ / τ ^ 3] := by
    funext v; fin_cases v <;> simp <;> field_simp
  rw [← e]
  exact run_units δ s hℓ hτ ![1 / τ, ℓ / τ ^ 2] (P := id) (P' := id) (fun _ => rfl) (id_onArrays G) (id_onArrays G)
    (tendStrat_units hn hS δ s hℓ.ne' hτ.ne' N) hc hdt F u0 k

/-- C95 (ns3d): the velocities are multiplied by `ℓ / τ`, for all the options of the projection and of the rotation. -/
theorem C95_ns3d {n : Fin 3 → ℕ} (hn : ∀ d, 0 < n d) {S : Finset (Fin 3 → ℤ)} (hS : NoAlias n S) (G : Finset (Fin 3 → ℤ))
    (δ s : Fin 3 → ℝ) {ℓ τ : ℝ} (hℓ : 0 < ℓ) (hτ : 0 < τ) (f : Option ℝ) (p : Projection) (noVz : Bool) (nu : Dissip.Nu)
    {c c' : Numerics (Fin 3) (Fin 3)} (hc : SameNumerics τ c c') (hdt : ∀ k, c.dt k ≠ 0) (F : ℕ → Fin 3 → Fld (Fin 3))
    (u0 : Fin 3 → Fld (Fin 3)) (k : ℕ) :
    runNs3d n S G (fun d => δ d / ℓ) (f.map (· / τ)) p noVz (newNu ℓ τ nu) c' (fun m => transformed δ s (fun _ => ℓ / τ / τ) (F m))
        (transformed δ s (fun _ => ℓ / τ) u0) k
      = transformed δ s (fun _ => ℓ / τ) (runNs3d n S G δ f p noVz nu c F u0 k) := by
  refine run_units δ s hℓ hτ (fun _ => ℓ / τ) (P := fun u => components fun k => (projectState p noVz (wave3 δ k) ⟨vec u k, none⟩).v)
    (P' := fun u => components fun k => (projectState p noVz (wave3 (fun d => δ d / ℓ) k) ⟨vec u k, none⟩).v) (fun u => ?_) rfl rfl
    (tend3d_units hn hS δ s hℓ hτ.ne' f p noVz) hc hdt F u0 k
  simp only [projectState_v, projV_units hℓ]
  have e : ∀ k, projV p noVz (wave3 δ k) (vec (transformed δ s (fun _ => ℓ / τ) u) k)
      = ⟨((ℓ / τ : ℝ) : ℂ) * phase δ s k * (projV p noVz (wave3 δ k) (vec u k)).x,
        ((ℓ / τ : ℝ) : ℂ) * phase δ s k * (projV p noVz (wave3 δ k) (vec u k)).y,
        ((ℓ / τ : ℝ) : ℂ) * phase δ s k * (projV p noVz (wave3 δ k) (vec u k)).z⟩ := fun k => by rw [← projV_mul]; rfl
  funext v q
  fin_cases v <;> simp only [components, e] <;> rfl

/-- C95 (ns3d.strat and, for `N = 0`, ns3d.bouss). -/
theorem C95_ns3d_strat {n : Fin 3 → ℕ} (hn : ∀ d, 0 < n d) {S : Finset (Fin 3 → ℤ)} (hS : NoAlias n S) (G : Finset (Fin 3 → ℤ))
    (δ s : Fin 3 → ℝ) {ℓ τ : ℝ} (hℓ : 0 < ℓ) (hτ : 0 < τ) (f : Option ℝ) (N : ℝ) (p : Projection) (noVz : Bool) (nu : Dissip.Nu)
    {c c' : Numerics (Fin 3) (Fin 4)} (hc : SameNumerics τ c c') (hdt : ∀ k, c.dt k ≠ 0) (F : ℕ → Fin 4 → Fld (Fin 3))
    (u0 : Fin 4 → Fld (Fin 3)) (k : ℕ) :
    runStrat3d n S G (fun d => δ d / ℓ) (f.map (· / τ)) (N / τ) p noVz (newNu ℓ τ nu) c'
        (fun m => transformed δ s ![ℓ / τ ^ 2, ℓ / τ ^ 2, ℓ / τ ^ 2, ℓ / τ ^ 3] (F m))
        (transformed δ s ![ℓ / τ, ℓ / τ, ℓ / τ, ℓ / τ ^ 2] u0) k
      = transformed δ s ![ℓ / τ, ℓ / τ, ℓ / τ, ℓ / τ ^ 2] (runStrat3d n S G δ f N p noVz nu c F u0 k) := by
  have e : (fun v => ![ℓ / τ, ℓ / τ, ℓ / τ, ℓ / τ ^ 2] v / τ) = ![ℓ / τ ^ 2, ℓ / τ ^ 2, ℓ / τ ^ 2, ℓ / τ ^ 3] := by
    funext v; fin_cases v <;> simp <;> field_simp
  rw [← e]
  refine run_units δ s hℓ hτ ![ℓ / τ, ℓ / τ, ℓ / τ, ℓ / τ ^ 2]
    (P := fun u => components4 fun k => projectState p noVz (wave3 δ k) (modeState u k))
    (P' := fun u => components4 fun k => projectState p noVz (wave3 (fun d => δ d / ℓ) k) (modeState u k)) (fun u => ?_) rfl rfl
    (tend3dStrat_units hn hS δ s hℓ hτ.ne' f N p noVz) hc hdt F u0 k
  have hz : ∀ k, (wave3 (fun d => δ d / ℓ) k).z = 0 ↔ (wave3 δ k).z = 0 := fun k => by rw [wave3_units]; simp [hℓ.ne']
  have hb : ∀ (δ : Fin 3 → ℝ) (u : Fin 4 → Fld (Fin 3)) k, (projectState p noVz (wave3 δ k) (modeState u k)).b.getD 0
      = if noVz = true ∧ (wave3 δ k).z = 0 then 0 else u 3 k := by
    intro δ u k
    simp only [projectState, modeState, abs_eq_zero]
    split <;> simp
  have ev : ∀ (δ : Fin 3 → ℝ) (u : Fin 4 → Fld (Fin 3)) k, (projectState p noVz (wave3 δ k) (modeState u k)).v
      = projV p noVz (wave3 δ k) (modeState u k).v := fun δ u k => projectState_v _ _ _ _ _
  have e : ∀ k, projV p noVz (wave3 δ k) (modeState (transformed δ s ![ℓ / τ, ℓ / τ, ℓ / τ, ℓ / τ ^ 2] u) k).v
      = ⟨((ℓ / τ : ℝ) : ℂ) * phase δ s k * (projV p noVz (wave3 δ k) (modeState u k).v).x,
        ((ℓ / τ : ℝ) : ℂ) * phase δ s k * (projV p noVz (wave3 δ k) (modeState u k).v).y,
        ((ℓ / τ : ℝ) : ℂ) * phase δ s k * (projV p noVz (wave3 δ k) (modeState u k).v).z⟩ := fun k => by rw [← projV_mul]; rfl
  funext v q
  fin_cases v
  · simp only [components4, ev, projV_units hℓ, e]; simp [transformed, phase, components4, ev]
  · simp only [components4, ev, projV_units hℓ, e]; simp [transformed, phase, components4, ev]
  · simp only [components4, ev, projV_units hℓ, e]; simp [transformed, phase, components4, ev]
  · simp only [components4, hb, hz, transformed]
    simp [components4, hb, transformed]

end

end Verif.Symmetry
