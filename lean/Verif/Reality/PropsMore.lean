import Verif.Reality.Props
import Verif.InitFields.Lemmas
import Verif.Uxuy.PropsRuns

/-! # C110: the half spectrum, ns2d.with_uxuy and examples -/

set_option linter.unusedSectionVars false

namespace Verif.Reality

open Verif.Fourier Verif.Vectors Verif.Energy Verif.Schemes Verif.EndToEnd Verif.Symmetry Verif.Uxuy Finset

noncomputable section

/-- The code stores the coefficients with `kx ≥ 0` only. For the fields of a run, the transform of this half (which doubles the modes
`kx > 0` and takes the real part) gives the values of the whole sum. -/
theorem C110_half_spectrum {V : Type*} {n : Fin 2 → ℕ} {S : Finset (Fin 2 → ℤ)} (hg : Grid n S) {u : V → Fld (Fin 2)} (hu : RealArrays n S u)
    (v : V) (j : Pt n) : ((InitFields.ifftHalf n S (u v) j : ℝ) : ℂ) = gridVal n S (u v) j := by
  rw [InitFields.ifftHalf_eq hg.opposite]
  refine sum_congr rfl fun k hk => ?_
  have h := (C110_real_iff_conjugate hg u hu.modes).1 hu.real v k hk
  congr 1
  simp only [InitFields.herm, h, Complex.conj_conj]
  split_ifs <;> first | rfl | ring

/-! ### ns2d.with_uxuy -/

variable {ι : Type*}

theorem uxuy_coefs {project : Arr ι → Arr ι} {sc : Scheme} {N : Arr ι → Arr ι} {f : Arr ι} {mask : ι → Bool} {ps pa pb : ℕ → Arr ι}
    {heap : Heap ι} {g1 g2 : Arr ι} {cfl : Bool} {u0 : Arr ι} {dt : ℕ → ℝ} (k : ℕ) :
    (simulationUxuy project sc N f mask ps pa pb heap g1 g2 cfl u0 dt k).coefs
      = (stepping id sc (fun _ => N) f mask ps pa pb heap g1 g2 cfl u0 dt k).coefs := by
  induction k with
  | zero => rfl
  | succ k ih => simp only [simulationUxuy, oneStepUxuy, stepping, oneStep3d, ih]

theorem uxuy_real {P : Arr ι → Prop} {project : Arr ι → Arr ι} {sc : Scheme} {N : Arr ι → Arr ι} {f : Arr ι} {mask : ι → Bool}
    {ps pa pb : ℕ → Arr ι} {heap : Heap ι} {g1 g2 : Arr ι} {cfl : Bool} {u0 : Arr ι} {dt : ℕ → ℝ}
    (hk : Kept P project (fun _ => N) f mask ps pa pb) (h0 : P u0) (hdt : ∀ k, dt k ≠ 0) (hfix : cfl = false → ∀ k, dt k = dt 0) (k : ℕ) :
    P ((simulationUxuy project sc N f mask ps pa pb heap g1 g2 cfl u0 dt k).heap .state) := by
  induction k with
  | zero => simpa only [simulationUxuy, set_same] using h0
  | succ k ih =>
    obtain ⟨e1, e2⟩ := Invariants.coefs_get (f := f) (g1 := g1) (g2 := g2) (project := id) (sc := sc) (N := fun _ => N) (mask := mask) (ps := ps)
      (pa := pa) (pb := pb) (heap := heap) (u0 := u0) hdt hfix k
    simp only [simulationUxuy, oneStepUxuy, Schemes.dealias, set_same, uxuy_coefs, e1, e2]
    exact hk.project _ (hk.mask _ (timeStep_real hk.sub (hk.tend k) sc _ (hk.lin _ (by simp))
      (hk.lin _ (by simp [map_div₀, map_ofNat (starRingEnd ℂ)])) (hk.ps k) (hk.pa k) (hk.pb k) _ ih))

theorem perp_herm {S : Finset (Fin 2 → ℤ)} (δ : Fin 2 → ℝ) {u : Fin 2 → Fld (Fin 2)} (hu : Herm S u) : Herm S (perpOf δ u) := by
  have e : ∀ a b : ℝ, Forcing.k2not0 (-a) (-b) = Forcing.k2not0 a b := fun a b => by
    simp [Forcing.k2not0]
  intro v
  refine ⟨fun k hk => ⟨((hu 0).1 k hk).1, ?_⟩, fun k hk => ?_⟩
  · fin_cases v <;> simp only [Fin.zero_eta, Fin.mk_one, perpOf, InitFields.projPerp, e, ((hu 0).1 k hk).2, ((hu 1).1 k hk).2, map_sub, map_mul, map_div₀, map_add,
      Complex.conj_ofReal, Pi.neg_apply, Int.cast_neg, mul_neg] <;> push_cast <;> ring
  · fin_cases v <;> simp [perpOf, InitFields.projPerp, (hu 0).2 k hk, (hu 1).2 k hk]

theorem frot_herm {S : Finset (Fin 2 → ℤ)} (hS : Sym S) (n : Fin 2 → ℕ) (δ : Fin 2 → ℝ) (beta : ℝ) {u : Fin 2 → Fld (Fin 2)} (hu : Herm S u) :
    RealField S (frotFft n S δ beta u) := by
  have hr : RealOn S (rotOf δ u) := fun k hk => ⟨hS k hk, by
    simp only [rotOf, Forcing.rotFromVec, ((hu 0).1 k hk).2, ((hu 1).1 k hk).2, Pi.neg_apply, map_mul, map_sub, Complex.conj_I,
      Complex.conj_ofReal, Int.cast_neg]
    push_cast
    ring⟩
  refine ⟨real_congr (real_of_fft hS (n := n) (x := fun j => computeFrot (gridVal n S (u 0) j) (gridVal n S (u 1) j)
      (gridVal n S (Energy.deriv δ 0 (rotOf δ u)) j) (gridVal n S (Energy.deriv δ 1 (rotOf δ u)) j) beta) fun j => ?_)
      fun k hk => by simp [frotFft, hk], fun k hk => by simp [frotFft, hk]⟩
  have h0 := real_grid (n := n) (hu 0).1 j
  have h1 := real_grid (n := n) (hu 1).1 j
  have h2 := real_grid (n := n) (hr.deriv δ 0) j
  have h3 := real_grid (n := n) (hr.deriv δ 1) j
  simp only [computeFrot]
  split_ifs <;> simp only [map_sub, map_neg, map_mul, map_add, h0, h1, h2, h3, Complex.conj_ofReal]

/-- ns2d.with_uxuy. -/
theorem C110_with_uxuy {n : Fin 2 → ℕ} {S G : Finset (Fin 2 → ℤ)} (hg : Grid n S) (hG : S ⊆ G) (δ : Fin 2 → ℝ) (beta : ℝ) (nu : Dissip.Nu)
    {c : Numerics (Fin 2) (Fin 2)} (hc : Proper c) {F u0 : Fin 2 → Fld (Fin 2)} (hF : RealArrays n S F) (h0 : RealArrays n S u0) (k : ℕ) :
    RealArrays n S (runUxuy n S G δ beta nu c.sc F (fun m i => c.ps m i.1) (fun m i => c.pa m i.1) (fun m i => c.pb m i.1)
      (fun b i => c.heap b i.1 i.2.1) (fun i => c.g1 i.1 i.2.1) (fun i => c.g2 i.1 i.2.1) c.cfl u0 c.dt k) := by
  rw [realArrays_iff hg] at *
  refine uxuy_real (P := HermArr S G) ⟨hermArr_sub, fun _ x hx => ?_, fun x hx => herm_array hG (perp_herm δ hx), fun x hx v => ?_,
    fun t htr => ?_, fun m => ?_, fun m => ?_, fun m => ?_⟩ (herm_array hG h0) hc.dt hc.fix k
  · refine herm_array hG fun v => ?_
    have h := vecOf_real (δ := δ) (frot_herm hg.opposite n δ beta hx) v
    exact ⟨real_add h.1 (hF v).1, fun k hk => by rw [forced, tendUxuy, h.2 k hk, (hF v).2 k hk, add_zero]⟩
  · have e : ∀ k ∈ S, fields G (fun i : Fin 2 × G => if truncated G S i then 0 else x i) v k = fields G x v k := fun k hk => by
      simp [fields, truncated, hk]
    refine ⟨real_congr (hx v).1 e, fun k hk => ?_⟩
    by_cases hkG : k ∈ G <;> simp [fields, truncated, hk, hkG]
  · refine hermArr_stable (d := fun _ k => Complex.exp (t * (Dissip.fd nu (waveSq δ k) : ℂ))) fun v k => ?_
    rw [waveSq_opp, ← Complex.exp_conj, map_mul, htr, Complex.conj_ofReal]
  · exact hermArr_stable (d := fun _ k => c.ps m k) fun v k => hc.ps m k
  · exact hermArr_stable (d := fun _ k => c.pa m k) fun v k => hc.pa m k
  · exact hermArr_stable (d := fun _ k => c.pb m k) fun v k => hc.pb m k

/-! ### Examples -/

theorem box_grid {d : ℕ} : Grid (fun _ : Fin d => 4) EndToEnd.box :=
  ⟨fun _ => by norm_num, fun _ hk => box_neg hk, box_noAlias.distinct⟩

/-- A scheme with phase shifts, with arrays which contain anything when they are allocated. -/
def exampleNumerics (d : ℕ) (V : Type*) : Numerics (Fin d) V :=
  ⟨.RK2_phaseshift_random, fun m k => Complex.exp (Complex.I * ((∑ i, (m / 3 : ℝ) * k i : ℝ) : ℂ)),
    fun m k => Complex.exp (Complex.I * ((∑ i, (m / 3 : ℝ) * k i : ℝ) : ℂ)), fun m k => Complex.exp (Complex.I * ((∑ i, (m / 5 : ℝ) * k i : ℝ) : ℂ)),
    fun _ _ _ => Complex.I, fun _ _ => 7, fun _ _ => Complex.I, true, fun k => 1 / (k + 1)⟩

theorem example_proper (d : ℕ) (V : Type*) : Proper (exampleNumerics d V) :=
  ⟨fun k => by simp only [exampleNumerics]; positivity, fun h => by simp [exampleNumerics] at h, fun m k => C110_shifts (fun _ => (m / 3 : ℝ)) k,
    fun m k => C110_shifts (fun _ => (m / 3 : ℝ)) k, fun m k => C110_shifts (fun _ => (m / 5 : ℝ)) k⟩

/-- Fields with all the modes of the box and complex coefficients. -/
def exampleFields (d : ℕ) (V : Type*) : V → Fld (Fin (d + 1)) := fun _ k =>
  if k ∈ (EndToEnd.box : Finset (Fin (d + 1) → ℤ)) then 2 + (k 0 : ℂ) * Complex.I else 0

theorem example_real (d : ℕ) (V : Type*) [Fintype V] : RealArrays (fun _ => 4) EndToEnd.box (exampleFields d V) := by
  rw [realArrays_iff box_grid]
  refine fun v => ⟨fun k hk => ⟨box_neg hk, ?_⟩, fun k hk => by simp [exampleFields, hk]⟩
  simp [exampleFields, hk, box_neg hk, map_ofNat (starRingEnd ℂ)]

/-- The hypotheses of the theorems are met: a run of ns2d with a force which changes at each step. -/
example (k : ℕ) : RealArrays (fun _ => 4) EndToEnd.box
    (runNs2d (fun _ => 4) EndToEnd.box EndToEnd.box (fun _ => 1) 2 ⟨1, 0, 1, 0⟩ (exampleNumerics 2 Unit)
      (fun m v k => m * exampleFields 1 Unit v k) (exampleFields 1 Unit) k) := by
  refine C110_ns2d box_grid (fun _ h => h) _ 2 _ (example_proper 2 Unit) _ _ (fun m => ?_) (example_real 1 Unit) k
  rw [realArrays_iff box_grid]
  intro v
  have h := (realArrays_iff box_grid _).1 (example_real 1 Unit) v
  exact ⟨fun k hk => ⟨(h.1 k hk).1, by simp only [(h.1 k hk).2, map_mul, Complex.conj_natCast]⟩, fun k hk => by simp only [h.2 k hk, mul_zero]⟩

/-- A run of ns3d.strat with the toroidal projection and `no_vz_kz0`. -/
example (k : ℕ) : RealArrays (fun _ => 4) EndToEnd.box
    (runStrat3d (fun _ => 4) EndToEnd.box EndToEnd.box (fun _ => 1) (some 3) 2 .toroidal true ⟨1, 0, 1, 0⟩ (exampleNumerics 3 (Fin 4))
      (fun _ => exampleFields 2 (Fin 4)) (exampleFields 2 (Fin 4)) k) :=
  C110_ns3d_strat box_grid (fun _ h => h) _ _ _ _ _ _ (example_proper 3 (Fin 4)) _ _ (fun _ => example_real 2 (Fin 4)) (example_real 2 (Fin 4)) k

end

end Verif.Reality
