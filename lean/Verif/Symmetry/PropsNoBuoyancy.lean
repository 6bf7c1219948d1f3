import Verif.Symmetry.PropsReductions
import Verif.Symmetry.PropsAliasing

/-! # C96: flows without buoyancy; the mean buoyancy; the hypotheses are met -/

set_option linter.unusedSectionVars false

namespace Verif.Symmetry

open Verif.Fourier Verif.Vectors Verif.Energy Verif.Galerkin Verif.Schemes Verif.EndToEnd Verif.Uxuy Finset

noncomputable section

/-- A velocity and no buoyancy. -/
def noBuoyancy (u : Fin 3 → Fld (Fin 3)) : Fin 4 → Fld (Fin 3) := ![u 0, u 1, u 2, fun _ => 0]

/-- A vorticity and no buoyancy. -/
def noBuoyancy2 (u : Unit → Fld (Fin 2)) : Fin 2 → Fld (Fin 2) := ![u (), fun _ => 0]

/-- The same scheme, time steps and phase shifts, with other variables. -/
def SameScheme {D V W : Type*} (c : Numerics D V) (c' : Numerics D W) : Prop :=
  c'.sc = c.sc ∧ c'.cfl = c.cfl ∧ c'.dt = c.dt ∧ ∀ m k, c'.ps m k = c.ps m k ∧ c'.pa m k = c.pa m k ∧ c'.pb m k = c.pb m k

def map3 : Map (Fin 3) (Fin 3) (Fin 4) (Fin 3) := ⟨fun w q => (![some 0, some 1, some 2, none] w).map fun v => (v, q), fun _ _ => 1⟩

def map2 : Map Unit (Fin 2) (Fin 2) (Fin 2) := ⟨fun w q => (![some (), none] w).map fun v => (v, q), fun _ _ => 1⟩

theorem map3_app (u : Fin 3 → Fld (Fin 3)) : map3.app u = noBuoyancy u := by
  funext w q
  fin_cases w <;> simp [map3, Map.app, noBuoyancy]

theorem map2_app (u : Unit → Fld (Fin 2)) : map2.app u = noBuoyancy2 u := by
  funext w q
  fin_cases w <;> simp [map2, Map.app, noBuoyancy2]

theorem map3_src {w : Fin 4} {q : Fin 3 → ℤ} {i : Fin 3 × (Fin 3 → ℤ)} (h : map3.src w q = some i) : q = i.2 := by
  obtain ⟨v, -, hv⟩ := Option.map_eq_some_iff.1 h
  rw [← hv]

theorem map2_src {w : Fin 2} {q : Fin 2 → ℤ} {i : Unit × (Fin 2 → ℤ)} (h : map2.src w q = some i) : q = i.2 := by
  obtain ⟨v, -, hv⟩ := Option.map_eq_some_iff.1 h
  rw [← hv]

theorem gridVal_zero {D : Type*} [Fintype D] [DecidableEq D] (n : D → ℕ) (S : Finset (D → ℤ)) (j) : gridVal n S (fun _ => 0) j = 0 := by
  simp [gridVal]

theorem fftCoef_zero {D : Type*} [Fintype D] [DecidableEq D] (n : D → ℕ) (k : D → ℤ) : fftCoef n (fun _ => 0) k = 0 := by
  simp [fftCoef]

theorem divVb_zero (n : Fin 3 → ℕ) (S : Finset (Fin 3 → ℤ)) (δ : Fin 3 → ℝ) (v : (Fin 3 → ℤ) → V3) (k : Fin 3 → ℤ) :
    divVb n S δ v (fun _ => 0) k = 0 := by
  simp [divVb, fftVec, gridVal_zero, fftCoef_zero]

theorem tend_map3 (n : Fin 3 → ℕ) (S : Finset (Fin 3 → ℤ)) (δ : Fin 3 → ℝ) (f : Option ℝ) (p : Projection) (noVz : Bool)
    (u : Fin 3 → Fld (Fin 3)) :
    tend3dStrat n S δ f 0 p noVz (noBuoyancy u) = noBuoyancy (tend3d n S δ f p noVz u) := by
  have hv : (fun k => (modeState (noBuoyancy u) k).v) = vec u := rfl
  have hb : noBuoyancy u 3 = fun _ => 0 := rfl
  have e : ∀ k, (ns3dStrat n S δ f 0 p noVz (vec u) (fun _ => 0) k).v = ns3d n S δ f p noVz (vec u) k ∧
      (ns3dStrat n S δ f 0 p noVz (vec u) (fun _ => 0) k).b.getD 0 = 0 := by
    intro k
    by_cases hk : k ∈ S
    · simp only [ns3dStrat, ns3d, if_pos hk, divVb_zero, projectState_v, add_zero]
      refine ⟨trivial, ?_⟩
      simp only [projectState]
      split <;> simp
    · simp [ns3dStrat, ns3d, if_neg hk]
  funext w k
  rw [tend3dStrat, hv, hb]
  fin_cases w
  · exact congrArg V3.x (e k).1
  · exact congrArg V3.y (e k).1
  · exact congrArg V3.z (e k).1
  · exact (e k).2

theorem tend_map2 (n : Fin 2 → ℕ) (S : Finset (Fin 2 → ℤ)) (δ : Fin 2 → ℝ) (u : Unit → Fld (Fin 2)) :
    tendStrat n S δ 0 (noBuoyancy2 u) = noBuoyancy2 (tend2d n S δ 0 u) := by
  have hd : ∀ d, Energy.deriv δ d (fun _ : Fin 2 → ℤ => (0 : ℂ)) = fun _ => 0 := fun d => by funext k; simp [Energy.deriv]
  funext w k
  fin_cases w
  · change (ns2dStrat n S δ 0 (u ()) fun _ => 0).1 k = ns2d n S δ 0 (u ()) k
    simp only [ns2dStrat, ns2d, computeFrot, if_true, hd, add_zero]
  · change (ns2dStrat n S δ 0 (u ()) fun _ => 0).2 k = 0
    simp [ns2dStrat, hd, gridVal_zero, fftCoef_zero]

/-- C96 (ns3d.bouss and ns3d): without buoyancy and without stratification, ns3d.strat and ns3d.bouss compute the run of ns3d, for
every option, and the buoyancy stays zero. -/
theorem C96_no_buoyancy_3d (n : Fin 3 → ℕ) (S G : Finset (Fin 3 → ℤ)) (δ : Fin 3 → ℝ) (f : Option ℝ) (p : Projection) (noVz : Bool)
    (nu : Dissip.Nu) {c : Numerics (Fin 3) (Fin 3)} {c' : Numerics (Fin 3) (Fin 4)} (hc : SameScheme c c') (hdt : ∀ k, c.dt k ≠ 0)
    (F : ℕ → Fin 3 → Fld (Fin 3)) (u0 : Fin 3 → Fld (Fin 3)) (k : ℕ) :
    runStrat3d n S G δ f 0 p noVz nu c' (fun m => noBuoyancy (F m)) (noBuoyancy u0) k
      = noBuoyancy (runNs3d n S G δ f p noVz nu c F u0 k) := by
  rw [← map3_app, ← map3_app]
  refine run_map map3 one_ne_zero (fun w q i hi => ?_) (fun w q i hi => ?_) (fun w q i hi => ?_)
    (P := fun u => components fun k => (projectState p noVz (wave3 δ k) ⟨vec u k, none⟩).v)
    (P' := fun u => components4 fun k => projectState p noVz (wave3 δ k) (modeState u k)) (fun u => ?_) rfl rfl (fun u w q => ?_)
    ⟨hc.1, hc.2.1, ?_, fun w q i hi j => ?_⟩ hdt (fun j w q => ?_) _ k
  · rw [map3_src hi]
  · rw [map3_src hi]
  · rw [map3_src hi, one_mul]
  · rw [map3_app, map3_app]
    have e : ∀ k, (projectState p noVz (wave3 δ k) (modeState (noBuoyancy u) k)).v
        = (projectState p noVz (wave3 δ k) ⟨vec u k, none⟩).v := fun k => (projectState_v _ _ _ _ _).trans (projectState_v _ _ _ _ _).symm
    funext w q
    fin_cases w
    · exact congrArg V3.x (e q)
    · exact congrArg V3.y (e q)
    · exact congrArg V3.z (e q)
    · change (projectState p noVz (wave3 δ q) (modeState (noBuoyancy u) q)).b.getD 0 = 0
      simp only [projectState, modeState, noBuoyancy]
      split <;> simp
  · rw [map3_app, map3_app, tend_map3, Complex.ofReal_one, one_mul]
  · rw [hc.2.2.1]; simp
  · rw [map3_src hi]; exact hc.2.2.2 j i.2
  · rw [map3_app, Complex.ofReal_one, one_mul]

/-- C96 (ns2d.strat and ns2d): without buoyancy and without stratification, ns2d.strat and ns2d.bouss compute the run of ns2d. -/
theorem C96_no_buoyancy_2d (n : Fin 2 → ℕ) (S G : Finset (Fin 2 → ℤ)) (δ : Fin 2 → ℝ) (nu : Dissip.Nu) {c : Numerics (Fin 2) Unit}
    {c' : Numerics (Fin 2) (Fin 2)} (hc : SameScheme c c') (hdt : ∀ k, c.dt k ≠ 0) (F : ℕ → Unit → Fld (Fin 2))
    (u0 : Unit → Fld (Fin 2)) (k : ℕ) :
    runStrat2d n S G δ 0 nu c' (fun m => noBuoyancy2 (F m)) (noBuoyancy2 u0) k = noBuoyancy2 (runNs2d n S G δ 0 nu c F u0 k) := by
  rw [← map2_app, ← map2_app]
  refine run_map map2 one_ne_zero (fun w q i hi => ?_) (fun w q i hi => ?_) (fun w q i hi => ?_) (P := id) (P' := id) (fun u => rfl)
    (id_onArrays G) (id_onArrays G) (fun u w q => ?_) ⟨hc.1, hc.2.1, ?_, fun w q i hi j => ?_⟩ hdt (fun j w q => ?_) _ k
  · rw [map2_src hi]
  · rw [map2_src hi]
  · rw [map2_src hi, one_mul]
  · rw [map2_app, map2_app, tend_map2, Complex.ofReal_one, one_mul]
  · rw [hc.2.2.1]; simp
  · rw [map2_src hi]; exact hc.2.2.2 j i.2
  · rw [map2_app, Complex.ofReal_one, one_mul]

/-! ### the mean buoyancy -/

/-- One step of one unit with the scheme Euler. -/
def exNum4 : Numerics (Fin 3) (Fin 4) :=
  ⟨.Euler, fun _ _ => 1, fun _ _ => 1, fun _ _ => 1, fun _ _ _ => 7, fun _ _ => 5, fun _ _ => 3, false, fun _ => 1⟩

/-- A fluid at rest with a uniform buoyancy. -/
def exRest : Fin 4 → Fld (Fin 3) := ![fun _ => 0, fun _ => 0, fun _ => 0, fun k => if k = 0 then 1 else 0]

/-- C96 fails for a flow with a mean buoyancy (finding): in ns3d.strat a fluid at rest with a uniform buoyancy gets a mean vertical
velocity, because the projection keeps the mean force (there is no pressure gradient to balance it), whereas the velocity computed from the
vorticity in ns2d.strat has no mean. -/
theorem C96_mean_buoyancy_violated :
    runStrat3d (fun _ => 4) {0} {0} (fun _ => 1) none 1 .none false exNu exNum4 (fun _ _ _ => 0) exRest 1 2 0 = 1 ∧
      ∀ c F k, uy2 (fun _ => 1) (runStrat2d (fun _ => 4) {0} {0} (fun _ => 1) 1 exNu c F (inPlane (fun _ => 1) exRest) k 0) 0 = 0 := by
  constructor
  · have e : fields {0} (array {0} exRest) = exRest := fields_array {0} fun v k hk => by
      have : k ≠ 0 := by simpa using hk
      fin_cases v <;> simp [exRest, this]
    have hT : tend3dStrat (fun _ => 4) {0} (fun _ => 1) none 1 .none false exRest 2 0 = 1 := by
      have hA : NoAlias (fun _ : Fin 3 => 4) ({0} : Finset (Fin 3 → ℤ)) := by
        constructor
        · intro p hp q hq k hk _
          rw [mem_singleton.1 hp, mem_singleton.1 hq, mem_singleton.1 hk, add_zero]
        · intro p hp q hq _
          rw [mem_singleton.1 hp, mem_singleton.1 hq]
      have h1 := (ns3dStrat_exact (fun _ => by norm_num) hA (fun _ => 1) none 1 .none false (fun k => (modeState exRest k).v) (exRest 3)
        (k := 0) (by simp)).1
      change (ns3dStrat (fun _ => 4) {0} (fun _ => 1) none 1 .none false (fun k => (modeState exRest k).v) (exRest 3) 0).v.z = 1
      rw [h1]
      simp [projV, projector, perpk, kradial, wave3, navierStokes, Vectors.add, advect, exactProduct, pd, exRest, modeState, comp]
    have h0 : (0 : Fin 3 → ℤ) ∈ ({0} : Finset (Fin 3 → ℤ)) := by simp
    have hz : ∀ s : ModeState, (projectState .none false (wave3 (fun _ => 1) 0) s).v.z = s.v.z := by
      intro s
      simp [projectState, projector, perpk, kradial, wave3]
    have hc : ∀ T, components4 T 2 0 = (T 0).v.z := fun _ => rfl
    rw [runStrat3d, run, fields, dif_pos h0]
    simp only [modeState, stepping, oneStep3d, project3dStrat, array, hc, hz, fields, dif_pos h0, Schemes.dealias, set_same, exNum4, timeStepRK, euler, tendencies, stepEuler, truncated, h0,
      not_true_eq_false, decide_false, Bool.false_eq_true, if_false, onArrays]
    simp only [Coefs.get, Coefs.init, Coefs.compute, Bool.false_eq_true, if_false, freqDiss, Dissip.fd, exNu, gt_iff_lt, lt_irrefl, Pi.mul_apply,
      Pi.add_apply, Pi.smul_apply, smul_eq_mul, set_same, set_other, ne_eq, reduceCtorEq, not_false_eq_true, e, array, forced, hT]
    simp [exRest]
  · intro c F k
    simp [uy2, vecFromRot_zero]

/-! ### the hypotheses are met -/

/-- The flow `vx = cos y` (of a box of length 2 pi). -/
def exHor : Fin 3 → Fld (Fin 3) := ![fun k => if k = ![0, 1, 0] ∨ k = ![0, -1, 0] then 1 / 2 else 0, fun _ => 0, fun _ => 0]

/-- The flow `vz = cos x` with the buoyancy `sin x`. -/
def exVer : Fin 4 → Fld (Fin 3) := ![fun _ => 0, fun _ => 0, fun k => if k = ![1, 0, 0] ∨ k = ![-1, 0, 0] then 1 / 2 else 0,
  fun k => if k = ![1, 0, 0] then 1 / (2 * Complex.I) else if k = ![-1, 0, 0] then -1 / (2 * Complex.I) else 0]

example : Horizontal (fun _ => 1) exHor ∧ exHor 0 ![0, 1, 0] ≠ 0 := by
  refine ⟨⟨fun v q hq => ?_, fun q => rfl, fun q => ?_, fun v => ?_⟩, by simp [exHor]⟩
  · have h1 : q ≠ ![0, 1, 0] := by rintro rfl; exact hq rfl
    have h2 : q ≠ ![0, -1, 0] := by rintro rfl; exact hq rfl
    fin_cases v <;> simp [exHor, h1, h2]
  · by_cases h : q = ![0, 1, 0] ∨ q = ![0, -1, 0]
    · rcases h with rfl | rfl <;> simp [pd, exHor]
    · simp [pd, exHor, h]
  · have h1 : (0 : Fin 3 → ℤ) ≠ ![0, 1, 0] := by decide
    have h2 : (0 : Fin 3 → ℤ) ≠ ![0, -1, 0] := by decide
    fin_cases v <;> simp [exHor, h1, h2]

example : Vertical (fun _ => 1) exVer ∧ exVer 2 ![1, 0, 0] ≠ 0 ∧ exVer 3 ![1, 0, 0] ≠ 0 := by
  refine ⟨⟨fun v q hq => ?_, fun q => rfl, fun q => ?_, fun v => ?_⟩, by simp [exVer], by simp [exVer]⟩
  · have h1 : q ≠ ![1, 0, 0] := by rintro rfl; exact hq rfl
    have h2 : q ≠ ![-1, 0, 0] := by rintro rfl; exact hq rfl
    fin_cases v <;> simp [exVer, h1, h2]
  · by_cases h : q = ![1, 0, 0] ∨ q = ![-1, 0, 0]
    · rcases h with rfl | rfl <;> simp [pd, exVer]
    · simp [pd, exVer, h]
  · have h1 : (0 : Fin 3 → ℤ) ≠ ![1, 0, 0] := by decide
    have h2 : (0 : Fin 3 → ℤ) ≠ ![-1, 0, 0] := by decide
    fin_cases v <;> simp [exVer, h1, h2]

/-- The modes of the grid in two dimensions are those of the grid in three dimensions, and the numerics agree. -/
example : NoAlias (fun _ : Fin 3 => 8) (okS (Fin 3)) ∧ (∀ k : Fin 2 → ℤ, k ∈ okS (Fin 2) ↔ ![k 0, k 1, 0] ∈ okS (Fin 3)) ∧
    (∀ k : Fin 2 → ℤ, k ∈ okS (Fin 2) ↔ ![k 0, 0, k 1] ∈ okS (Fin 3)) ∧
    SliceNumerics (fun k => ![k 0, 0, k 1]) (⟨.Euler, fun _ _ => 1, fun _ _ => 1, fun _ _ => 1, fun _ _ _ => 0, fun _ _ => 0, fun _ _ => 0,
      false, fun _ => 1⟩ : Numerics (Fin 2) (Fin 2)) exNum4 := by
  refine ⟨okS_noAlias _, fun k => ?_, fun k => ?_, rfl, rfl, rfl, fun _ _ => ⟨rfl, rfl, rfl⟩⟩
  · simp [okS, Fintype.mem_piFinset, Fin.forall_fin_succ]
  · simp [okS, Fintype.mem_piFinset, Fin.forall_fin_succ]

end

end Verif.Symmetry
