import Verif.Smooth.PropsNu
import Verif.Smooth.PropsCfl

/-! # C112: dependence on the physical parameters

`beta` of ns2d, `N` of ns2d.strat, `f` and `c2` of sw1l and sw1l.modified, `f` of ns3d, `f` and `N` of ns3d.strat: with the viscosities, the initial fields, the forces and the time steps they can all
depend on the parameter. In particular nothing special happens at `beta = 0` and `f = 0`, where the code takes another path
(fluidsim/solvers/ns2d/solver.py 33-39, fluidsim/solvers/sw1l/solver.py 35-37). -/

set_option linter.unusedSectionVars false

namespace Verif.Smooth

open Verif.Fourier Verif.Vectors Verif.Energy Verif.Schemes Verif.EndToEnd Verif.Symmetry Finset

noncomputable section

variable {D V : Type*}

/-- The fields after each step are smooth functions of the `m` physical parameters, the viscosities, the initial fields, the forces and the
time steps. -/
def DependsSmoothlyPhys {m : ℕ}
    (run : (Fin m → ℝ) → Dissip.Nu → Numerics D V → (ℕ → V → Fld D) → (V → Fld D) → ℕ → V → Fld D) : Prop :=
  ∀ (c : Numerics D V) (E : Type) [NormedAddCommGroup E] [NormedSpace ℝ E] (r : ℕ) (a : E → Fin m → ℝ) (nu : E → Dissip.Nu)
    (dt : E → ℕ → ℝ) (F : E → ℕ → V → Fld D) (u0 : E → V → Fld D), (∀ i, ContDiff ℝ r fun p => a p i) → SmoothNu r nu →
    SmoothSteps r c.cfl dt → (∀ m, SmoothFields r fun p => F p m) → SmoothFields r u0 →
    ∀ k, SmoothFields r fun p => run (a p) (nu p) { c with dt := dt p } (F p) (u0 p) k

theorem dependsPhys [Fintype D] [DecidableEq D] [Fintype V] {S G : Finset (D → ℤ)} (δ : D → ℝ) {m l : ℕ}
    {project : Arr (V × G) → Arr (V × G)}
    (hproj : ∀ (E : Type) [NormedAddCommGroup E] [NormedSpace ℝ E] (r : ℕ) (x : E → Arr (V × G)), Sm r x → Sm r fun p => project (x p))
    {tend : (Fin m → ℝ) → (V → Fld D) → V → Fld D} {T0 : (V → Fld D) → V → Fld D} {T : Fin l → (V → Fld D) → V → Fld D}
    {c : Fin l → (Fin m → ℝ) → ℝ} (hc : ∀ (r : ℕ) i, ContDiff ℝ r (c i))
    (e : ∀ a u v k, tend a u v k = T0 u v k + ∑ i, (c i a : ℂ) * T i u v k)
    (h0 : ∀ (r : ℕ) v k, ContDiff ℝ r fun a : Arr (V × G) => T0 (fields G a) v k)
    (h : ∀ (r : ℕ) i v k, ContDiff ℝ r fun a : Arr (V × G) => T i (fields G a) v k) :
    DependsSmoothlyPhys fun a nu => run S G δ nu project (tend a) := by
  intro num E _ _ r a nu dt F u0 ha hnu hdt hF hu k v q
  simp only [run]
  refine smooth_fields (stepping_smooth hdt (fun m x hx i => ?_) (hproj E r) (smooth_freq hnu G δ) (fun i => hu i.1 i.2.1) k) v q
  have hx' := contDiff_pi.2 hx
  have ha' := contDiff_pi.2 ha
  have key : ContDiff ℝ r fun p => tend (a p) (fields G (x p)) i.1 i.2.1 := by
    simp only [e]
    refine ((h0 r i.1 i.2.1).comp hx').add (ContDiff.sum fun j _ => ?_)
    exact (cd_ofReal ((hc r j).comp ha')).mul ((h r j i.1 i.2.1).comp hx')
  exact key.add (hF m i.1 i.2.1)

theorem fft_comb [Fintype D] [DecidableEq D] {n : D → ℕ} (a b : Pt n → ℂ) (c : ℂ) (k : D → ℤ) :
    fftCoef n a k + c * (fftCoef n b k - fftCoef n a k) = fftCoef n (fun j => a j + c * (b j - a j)) k := by
  simp only [fftCoef]
  rw [← sub_div, ← mul_div_assoc, ← add_div, ← sum_sub_distrib, mul_sum, ← sum_add_distrib]
  congr 1
  exact sum_congr rfl fun j _ => by ring

/-- **C112 (ns2d)**: the results depend smoothly on `beta`. -/
theorem C112_beta_ns2d (n : Fin 2 → ℕ) (S G : Finset (Fin 2 → ℤ)) (δ : Fin 2 → ℝ) :
    DependsSmoothlyPhys fun (a : Fin 1 → ℝ) nu => runNs2d n S G δ (a 0) nu := by
  refine dependsPhys (l := 1) δ (fun _ _ _ _ _ h => h) (T0 := tend2d n S δ 0) (T := fun _ u v k => tend2d n S δ 1 u v k - tend2d n S δ 0 u v k)
    (c := fun _ a => a 0) (fun r _ => contDiff_apply ℝ ℝ 0) ?_ (fun r => smooth_tend2d n S δ 0 G r)
    fun r _ v k => (smooth_tend2d n S δ 1 G r v k).sub (smooth_tend2d n S δ 0 G r v k)
  intro a u v k
  rw [Fin.sum_univ_one]
  simp only [tend2d, ns2d]
  split_ifs
  · rw [fft_comb]
    congr 1
    funext j
    simp only [computeFrot]
    by_cases hb : a 0 = 0
    · simp [hb]
    · simp [hb]; ring
  · simp

/-- **C112 (ns2d.strat)**: the results depend smoothly on `N`. -/
theorem C112_N_ns2d_strat (n : Fin 2 → ℕ) (S G : Finset (Fin 2 → ℤ)) (δ : Fin 2 → ℝ) :
    DependsSmoothlyPhys fun (a : Fin 1 → ℝ) nu => runStrat2d n S G δ (a 0) nu := by
  refine dependsPhys (l := 1) δ (fun _ _ _ _ _ h => h) (T0 := tendStrat n S δ 0) (T := fun _ u v k => tendStrat n S δ 1 u v k - tendStrat n S δ 0 u v k)
    (c := fun _ a => a 0 ^ 2) (fun r _ => (contDiff_apply ℝ ℝ 0).pow 2) ?_ (fun r => smooth_tendStrat n S δ 0 G r)
    fun r _ v k => (smooth_tendStrat n S δ 1 G r v k).sub (smooth_tendStrat n S δ 0 G r v k)
  intro a u v k
  rw [Fin.sum_univ_one]
  by_cases hv : v = 0
  · simp [tendStrat, hv, ns2dStrat]
  · simp only [tendStrat, hv, ns2dStrat, if_false]
    split_ifs
    · rw [fft_comb]
      congr 1
      funext j
      push_cast
      ring
    · simp

/-- **C112 (sw1l)**: the results depend smoothly on `f` and on `c2`. -/
theorem C112_f_c2_sw1l (δ : Fin 2 → ℝ) (n : Fin 2 → ℕ) (S G : Finset (Fin 2 → ℤ)) :
    DependsSmoothlyPhys fun (a : Fin 2 → ℝ) nu => runSw1l ⟨δ, a 0, a 1⟩ n S G nu := by
  refine dependsPhys (l := 2) δ (fun _ _ _ _ _ h => h) (T0 := tendSw1l ⟨δ, 0, 0⟩ n S)
    (T := fun i u v k => tendSw1l ⟨δ, if i = 0 then 1 else 0, if i = 0 then 0 else 1⟩ n S u v k - tendSw1l ⟨δ, 0, 0⟩ n S u v k)
    (c := fun i a => a i) (fun r i => contDiff_apply ℝ ℝ i) ?_ (fun r => smooth_sw1l ⟨δ, 0, 0⟩ n S G r)
    fun r i v k => (smooth_sw1l ⟨δ, if i = 0 then 1 else 0, if i = 0 then 0 else 1⟩ n S G r v k).sub (smooth_sw1l ⟨δ, 0, 0⟩ n S G r v k)
  intro a u v k
  rw [Fin.sum_univ_two]
  have hp : ∀ (e K : Pt n → ℂ), fftCoef n (fun j => (a 1 : ℂ) * e j + K j) k = fftCoef n (fun j => ((0 : ℝ) : ℂ) * e j + K j) k
      + (a 1 : ℂ) * (fftCoef n (fun j => ((1 : ℝ) : ℂ) * e j + K j) k - fftCoef n (fun j => ((0 : ℝ) : ℂ) * e j + K j) k) := by
    intro e K
    rw [fft_comb]
    congr 1
    funext j
    push_cast
    ring
  have hx : ∀ (r w : Pt n → ℂ), fftCoef n (fun j => (if a 0 ≠ 0 then r j + (a 0 : ℂ) else r j) * w j) k = fftCoef n (fun j => r j * w j) k
      + (a 0 : ℂ) * (fftCoef n (fun j => (r j + ((1 : ℝ) : ℂ)) * w j) k - fftCoef n (fun j => r j * w j) k) := by
    intro r w
    rw [fft_comb]
    congr 1
    funext j
    by_cases hb : a 0 = 0
    · simp [hb]
    · simp only [ne_eq, hb, not_false_eq_true, if_true]; push_cast; ring
  have hy : ∀ (r w : Pt n → ℂ), fftCoef n (fun j => -(if a 0 ≠ 0 then r j + (a 0 : ℂ) else r j) * w j) k = fftCoef n (fun j => -r j * w j) k
      + (a 0 : ℂ) * (fftCoef n (fun j => -(r j + ((1 : ℝ) : ℂ)) * w j) k - fftCoef n (fun j => -r j * w j) k) := by
    intro r w
    rw [fft_comb]
    congr 1
    funext j
    by_cases hb : a 0 = 0
    · simp [hb]
    · simp only [ne_eq, hb, not_false_eq_true, if_true]; push_cast; ring
  have h10 : (1 : Fin 2) ≠ 0 := by decide
  simp only [h10, if_true, if_false]
  by_cases hk : k ∈ S
  · fin_cases v
    · simp only [tendSw1l, ofUEta, Sw1l.sw1l, Sw1l.trunc, hk, if_true, Sw1l.rotOf, Sw1l.Par.kx, Sw1l.Par.ky]
      rw [hp, hx]
      simp only [ne_eq, one_ne_zero, not_true_eq_false, not_false_eq_true, if_true, if_false]
      ring
    · simp only [tendSw1l, ofUEta, Sw1l.sw1l, Sw1l.trunc, hk, if_true, Sw1l.rotOf, Sw1l.Par.kx, Sw1l.Par.ky]
      rw [hp, hy]
      simp only [ne_eq, one_ne_zero, not_true_eq_false, not_false_eq_true, if_true, if_false]
      ring
    · simp only [tendSw1l, ofUEta, Sw1l.sw1l, Sw1l.trunc, hk, if_true, Sw1l.divOf, Sw1l.Par.kx, Sw1l.Par.ky]
      ring
  · fin_cases v <;> simp [tendSw1l, ofUEta, Sw1l.sw1l, Sw1l.trunc, hk]

/-- **C112 (sw1l.modified)**: the results depend smoothly on `f` and on `c2`. -/
theorem C112_f_c2_sw1l_modified (δ : Fin 2 → ℝ) (n : Fin 2 → ℕ) (S G : Finset (Fin 2 → ℤ)) :
    DependsSmoothlyPhys fun (a : Fin 2 → ℝ) nu => runModified ⟨δ, a 0, a 1⟩ n S G nu := by
  refine dependsPhys (l := 2) δ (fun _ _ _ _ _ h => h) (T0 := tendModified ⟨δ, 0, 0⟩ n S)
    (T := fun i u v k => tendModified ⟨δ, if i = 0 then 1 else 0, if i = 0 then 0 else 1⟩ n S u v k - tendModified ⟨δ, 0, 0⟩ n S u v k)
    (c := fun i a => a i) (fun r i => contDiff_apply ℝ ℝ i) ?_ (fun r => smooth_modified ⟨δ, 0, 0⟩ n S G r)
    fun r i v k => (smooth_modified ⟨δ, if i = 0 then 1 else 0, if i = 0 then 0 else 1⟩ n S G r v k).sub (smooth_modified ⟨δ, 0, 0⟩ n S G r v k)
  intro a u v k
  rw [Fin.sum_univ_two]
  have hx : ∀ (w K : Pt n → ℂ), fftCoef n (fun j => (a 0 : ℂ) * w j + K j) k = fftCoef n (fun j => ((0 : ℝ) : ℂ) * w j + K j) k
      + (a 0 : ℂ) * (fftCoef n (fun j => ((1 : ℝ) : ℂ) * w j + K j) k - fftCoef n (fun j => ((0 : ℝ) : ℂ) * w j + K j) k) := by
    intro w K
    rw [fft_comb]
    congr 1
    funext j
    push_cast
    ring
  have hy : ∀ (w K : Pt n → ℂ), fftCoef n (fun j => -(a 0 : ℂ) * w j + K j) k = fftCoef n (fun j => -((0 : ℝ) : ℂ) * w j + K j) k
      + (a 0 : ℂ) * (fftCoef n (fun j => -((1 : ℝ) : ℂ) * w j + K j) k - fftCoef n (fun j => -((0 : ℝ) : ℂ) * w j + K j) k) := by
    intro w K
    rw [fft_comb]
    congr 1
    funext j
    push_cast
    ring
  have h10 : (1 : Fin 2) ≠ 0 := by decide
  simp only [h10, if_true, if_false]
  by_cases hk : k ∈ S
  · fin_cases v
    · simp only [tendModified, ofUEta, Sw1l.modified, Sw1l.trunc, hk, if_true, Sw1l.rotOf, Sw1l.Par.kx, Sw1l.Par.ky]
      rw [hx]
      push_cast
      ring
    · simp only [tendModified, ofUEta, Sw1l.modified, Sw1l.trunc, hk, if_true, Sw1l.rotOf, Sw1l.Par.kx, Sw1l.Par.ky]
      rw [hy]
      push_cast
      ring
    · simp only [tendModified, ofUEta, Sw1l.modified, Sw1l.trunc, hk, if_true, Sw1l.rotOf, Sw1l.divOf, Sw1l.Par.kx, Sw1l.Par.ky]
      ring
  · fin_cases v <;> simp [tendModified, ofUEta, Sw1l.modified, Sw1l.trunc, hk]

/-! ### 3D -/

theorem grid_comb [Fintype D] [DecidableEq D] (n : D → ℕ) (S : Finset (D → ℤ)) (a b : Fld D) (c : ℂ) (j : Pt n) :
    gridVal n S (fun k => a k + c * (b k - a k)) j = gridVal n S a j + c * (gridVal n S b j - gridVal n S a j) := by
  simp only [gridVal]
  rw [← sum_sub_distrib, mul_sum, ← sum_add_distrib]
  exact sum_congr rfl fun k _ => by ring

/-- The vector `a + c (b - a)`. -/
def comb3 (a b : V3) (c : ℂ) : V3 := ⟨a.x + c * (b.x - a.x), a.y + c * (b.y - a.y), a.z + c * (b.z - a.z)⟩

theorem omega_comb (δ : Fin 3 → ℝ) (f : ℝ) (v : (Fin 3 → ℤ) → V3) (k : Fin 3 → ℤ) :
    omegaFft δ (some f) v k = comb3 (omegaFft δ (some 0) v k) (omegaFft δ (some 1) v k) f := by
  simp only [omegaFft, comb3, Option.getD_some, V3.mk.injEq]
  refine ⟨by ring, by ring, ?_⟩
  split_ifs
  · push_cast; ring
  · ring

theorem lamb_comb (n : Fin 3 → ℕ) (S : Finset (Fin 3 → ℤ)) (δ : Fin 3 → ℝ) (f : ℝ) (v : (Fin 3 → ℤ) → V3) (k : Fin 3 → ℤ) :
    lamb n S δ (some f) v k = comb3 (lamb n S δ (some 0) v k) (lamb n S δ (some 1) v k) f := by
  have e : ∀ j, gridVec n (insert 0 S) (omegaFft δ (some f) v) j
      = comb3 (gridVec n (insert 0 S) (omegaFft δ (some 0) v) j) (gridVec n (insert 0 S) (omegaFft δ (some 1) v) j) f := by
    intro j
    simp only [gridVec, omega_comb δ f, comb3, grid_comb]
  simp only [lamb, fftVec, e]
  simp only [comb3, V3.mk.injEq, fft_comb]
  refine ⟨?_, ?_, ?_⟩ <;> · congr 1; funext j; simp only [cross]; ring

theorem projector_comb (p : Projection) (k : K3) (a b : V3) (c : ℂ) : projector p k (comb3 a b c) = comb3 (projector p k a) (projector p k b) c := by
  cases p <;> simp only [projector, perpk, kradial, toroidal, poloidal, comb3, V3.mk.injEq] <;> refine ⟨?_, ?_, ?_⟩ <;> ring

theorem smooth_tend4' (n : Fin 3 → ℕ) (S G : Finset (Fin 3 → ℤ)) (δ : Fin 3 → ℝ) (f : Option ℝ) (N : ℝ) (p : Projection) (noVz : Bool) (r : ℕ)
    (v : Fin 4) (k : Fin 3 → ℤ) : ContDiff ℝ r fun a : Arr (Fin 4 × G) => tend3dStrat n S δ f N p noVz (fields G a) v k := by
  simp only [tend4_noVz n S δ f N p noVz]
  split
  · exact contDiff_const
  · exact smooth_tend4 n S δ f N p G r v k

/-- **C112 (ns3d)**: the results depend smoothly on `f`. -/
theorem C112_f_ns3d (n : Fin 3 → ℕ) (S G : Finset (Fin 3 → ℤ)) (δ : Fin 3 → ℝ) (p : Projection) (noVzKz0 : Bool) :
    DependsSmoothlyPhys fun (a : Fin 1 → ℝ) nu => runNs3d n S G δ (some (a 0)) p noVzKz0 nu := by
  refine dependsPhys (l := 1) δ (project3d_smooth G δ p noVzKz0) (T0 := tend3d n S δ (some 0) p noVzKz0)
    (T := fun _ u v k => tend3d n S δ (some 1) p noVzKz0 u v k - tend3d n S δ (some 0) p noVzKz0 u v k)
    (c := fun _ a => a 0) (fun r _ => contDiff_apply ℝ ℝ 0) ?_ (fun r => smooth_tend3d n S δ (some 0) p noVzKz0 G r)
    fun r _ v k => (smooth_tend3d n S δ (some 1) p noVzKz0 G r v k).sub (smooth_tend3d n S δ (some 0) p noVzKz0 G r v k)
  intro a u v k
  rw [Fin.sum_univ_one]
  by_cases hk : k ∈ S
  · by_cases hz : noVzKz0 = true ∧ |(wave3 δ k).z| = 0
    · fin_cases v <;> simp only [tend3d, components, ns3d, hk, if_true, projectState, hz, lamb_comb n S δ (a 0), projector_comb] <;>
        simp [comb3]
    · fin_cases v <;> simp only [tend3d, components, ns3d, hk, if_true, projectState, hz, if_false, lamb_comb n S δ (a 0), projector_comb] <;>
        simp [comb3]
  · fin_cases v <;> simp [tend3d, components, ns3d, hk]

/-- **C112 (ns3d.strat)**: the results depend smoothly on `f` and on `N`. -/
theorem C112_f_N_ns3d_strat (n : Fin 3 → ℕ) (S G : Finset (Fin 3 → ℤ)) (δ : Fin 3 → ℝ) (p : Projection) (noVzKz0 : Bool) :
    DependsSmoothlyPhys fun (a : Fin 2 → ℝ) nu => runStrat3d n S G δ (some (a 0)) (a 1) p noVzKz0 nu := by
  refine dependsPhys (l := 2) δ (project4_smooth G δ p noVzKz0) (T0 := tend3dStrat n S δ (some 0) 0 p noVzKz0)
    (T := fun i u v k => (if i = 0 then tend3dStrat n S δ (some 1) 0 p noVzKz0 u v k else tend3dStrat n S δ (some 0) 1 p noVzKz0 u v k)
      - tend3dStrat n S δ (some 0) 0 p noVzKz0 u v k)
    (c := fun i a => if i = 0 then a 0 else a 1 ^ 2) (fun r i => ?_) ?_ (fun r => smooth_tend4' n S G δ (some 0) 0 p noVzKz0 r)
    fun r i v k => ?_
  · split_ifs
    · exact contDiff_apply ℝ ℝ 0
    · exact (contDiff_apply ℝ ℝ 1).pow 2
  · intro a u v k
    rw [Fin.sum_univ_two]
    have hl : lamb n S δ (some (a 0)) (fun k => (modeState u k).v) k
      = comb3 (lamb n S δ (some 0) (fun k => (modeState u k).v) k) (lamb n S δ (some 1) (fun k => (modeState u k).v) k) (a 0) := lamb_comb ..
    have hadd : ∀ (A B : V3) (c w : ℂ), (⟨(comb3 A B c).x, (comb3 A B c).y, (comb3 A B c).z + w⟩ : V3)
        = comb3 ⟨A.x, A.y, A.z + w⟩ ⟨B.x, B.y, B.z + w⟩ c := by
      intro A B c w
      simp only [comb3, V3.mk.injEq]
      exact ⟨trivial, trivial, by ring⟩
    have h10 : (1 : Fin 2) ≠ 0 := by decide
    simp only [h10, if_true, if_false]
    by_cases hk : k ∈ S
    · by_cases hz : noVzKz0 = true ∧ |(wave3 δ k).z| = 0
      · fin_cases v <;> simp only [tend3dStrat, components4, ns3dStrat, hk, if_true, projectState, hz, hl, hadd, projector_comb] <;>
          simp [comb3]
      · fin_cases v <;> simp only [tend3dStrat, components4, ns3dStrat, hk, if_true, projectState, hz, if_false, hl, hadd, projector_comb] <;>
          simp [comb3]
        ring
    · fin_cases v <;> simp [tend3dStrat, components4, ns3dStrat, hk]
  · split_ifs
    · exact (smooth_tend4' n S G δ (some 1) 0 p noVzKz0 r v k).sub (smooth_tend4' n S G δ (some 0) 0 p noVzKz0 r v k)
    · exact (smooth_tend4' n S G δ (some 0) 1 p noVzKz0 r v k).sub (smooth_tend4' n S G δ (some 0) 0 p noVzKz0 r v k)

/-! ### What a user sees -/

/-- Continuity: if the physical parameters are known with some precision, the fields after `k` steps have the precision `ε`. -/
theorem C112_parameter_continuity {m : ℕ}
    {run : (Fin m → ℝ) → Dissip.Nu → Numerics D V → (ℕ → V → Fld D) → (V → Fld D) → ℕ → V → Fld D} (h : DependsSmoothlyPhys run)
    {c : Numerics D V} (hdt : ∀ k, c.dt k ≠ 0) (hfix : c.cfl = false → ∀ k, c.dt k = c.dt 0) {nu : Dissip.Nu} (hnu : Nu.Ok nu)
    (F : ℕ → V → Fld D) (u0 : V → Fld D) (a : Fin m → ℝ) (k : ℕ) (v : V) (q : D → ℤ) {ε : ℝ} (hε : 0 < ε) :
    ∃ η > 0, ∀ b : Fin m → ℝ, (∀ i, |b i - a i| < η) → ‖run b nu c F u0 k v q - run a nu c F u0 k v q‖ < ε := by
  have := (h c (Fin m → ℝ) 0 (fun b => b) (fun _ => nu) (fun _ => c.dt) (fun _ => F) (fun _ => u0) (fun i => contDiff_apply ℝ ℝ i)
    ⟨fun _ => hnu, contDiff_const, contDiff_const, contDiff_const⟩ ⟨fun _ => hdt, fun e _ => hfix e, fun _ => contDiff_const⟩
    (fun _ _ _ => contDiff_const) (fun _ _ => contDiff_const) k v q).continuous
  obtain ⟨η, hη, key⟩ := Metric.continuous_iff.1 this a ε hε
  refine ⟨η, hη, fun b hb => ?_⟩
  have := key b ((dist_pi_lt_iff hη).2 fun i => by
    rw [Real.dist_eq]
    exact hb i)
  simpa only [dist_eq_norm] using this

/-- Sensitivities: the difference between the run with a perturbed physical parameter and the run, divided by the perturbation, has a
limit. -/
theorem C112_parameter_sensitivity {m : ℕ}
    {run : (Fin m → ℝ) → Dissip.Nu → Numerics D V → (ℕ → V → Fld D) → (V → Fld D) → ℕ → V → Fld D} (h : DependsSmoothlyPhys run)
    {c : Numerics D V} (hdt : ∀ k, c.dt k ≠ 0) (hfix : c.cfl = false → ∀ k, c.dt k = c.dt 0) {nu : Dissip.Nu} (hnu : Nu.Ok nu)
    (F : ℕ → V → Fld D) (u0 : V → Fld D) (a : Fin m → ℝ) (i : Fin m) (k : ℕ) (v : V) (q : D → ℤ) : ∃ L : ℂ, Filter.Tendsto (fun ε : ℝ =>
      (run (Function.update a i (a i + ε)) nu c F u0 k v q - run a nu c F u0 k v q) / ε) (nhdsWithin 0 {0}ᶜ) (nhds L) := by
  have key := h c ℝ 1 (fun ε => Function.update a i (a i + ε)) (fun _ => nu) (fun _ => c.dt) (fun _ => F) (fun _ => u0)
    (fun i' => by
      by_cases e : i' = i
      · subst e
        simp only [Function.update_self]
        exact contDiff_const.add contDiff_id
      · simp only [Function.update_of_ne e]
        exact contDiff_const)
    ⟨fun _ => hnu, contDiff_const, contDiff_const, contDiff_const⟩ ⟨fun _ => hdt, fun e _ => hfix e, fun _ => contDiff_const⟩
    (fun _ _ _ => contDiff_const) (fun _ _ => contDiff_const) k v q
  have hd := (key.differentiable (by simp) (0 : ℝ)).hasDerivAt
  refine ⟨_, (hasDerivAt_iff_tendsto_slope.1 hd).congr fun ε => ?_⟩
  simp only [slope, vsub_eq_sub, sub_zero, add_zero, Function.update_eq_self, Complex.real_smul, Complex.ofReal_inv]
  rw [div_eq_inv_mul]

/-- `beta = p`, and `f = p`, `c2 = 1 + p²`: the parameters vary around zero, where the code takes another path. -/
example (r : ℕ) : (∀ i : Fin 1, ContDiff ℝ r fun p : ℝ => (![p] : Fin 1 → ℝ) i) ∧
    ∀ i : Fin 2, ContDiff ℝ r fun p : ℝ => (![p, 1 + p ^ 2] : Fin 2 → ℝ) i := by
  constructor
  · intro i; fin_cases i; exact contDiff_id
  · intro i; fin_cases i
    · exact contDiff_id
    · exact contDiff_const.add (contDiff_id.pow 2)

/-- The sensitivity to `beta`, at `beta = 0`, of a decaying shear flow after three steps of RK4. -/
example : ∃ L : ℂ, Filter.Tendsto (fun ε : ℝ =>
    (runNs2d (fun _ => 4) exModes exModes (fun _ => 1) (Function.update (fun _ : Fin 1 => (0 : ℝ)) 0 (0 + ε) 0) ⟨1, 0, 0, 0⟩
      ⟨.RK4, fun _ _ => 1, fun _ _ => 1, fun _ _ => 1, fun _ _ _ => 0, fun _ _ => 0, fun _ _ => 0, false, fun _ => 1 / 10⟩
      (fun _ _ _ => 0) (exShear 1) 3 () ![0, 1]
      - runNs2d (fun _ => 4) exModes exModes (fun _ => 1) 0 ⟨1, 0, 0, 0⟩
      ⟨.RK4, fun _ _ => 1, fun _ _ => 1, fun _ _ => 1, fun _ _ _ => 0, fun _ _ => 0, fun _ _ => 0, false, fun _ => 1 / 10⟩
      (fun _ _ _ => 0) (exShear 1) 3 () ![0, 1]) / ε) (nhdsWithin 0 {0}ᶜ) (nhds L) :=
  C112_parameter_sensitivity (C112_beta_ns2d _ _ _ _) (fun _ => by norm_num) (fun _ _ => rfl) ⟨by norm_num, le_rfl, le_rfl, rfl⟩ _ _
    (fun _ => 0) 0 3 () _

end

end Verif.Smooth
