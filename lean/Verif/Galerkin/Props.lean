import Verif.Galerkin.Lemmas
import Verif.Sw1l.Props
import Verif.Burgers.Props

/-!
# C57: the tendencies are the right-hand sides of the documented equations, truncated
-/

namespace Verif.Galerkin

open Verif.Fourier Verif.Energy Verif.Vectors Finset

noncomputable section

/-- C57: the default truncations of square and cubic domains remove the aliasing. -/
theorem C57_no_alias {D : Type*} [Fintype D] [DecidableEq D] (δ : D → ℝ) (n : D → ℕ) (x : D)
    {coef : ℝ} (hδ : ∀ d, 0 < δ d) (hc0 : 0 ≤ coef) (hc : coef ≤ 2 / 3)
    (hiso : ∀ d, δ x * n x ≤ δ d * n d) {S : Finset (D → ℤ)}
    (hkept : ∀ k ∈ S, keptSpherical δ n x coef k) : NoAlias n S :=
  noAlias_of_small n S fun k hk d => spherical_bound δ n x coef hδ hc0 hc hiso k (hkept k hk) d

/-- The advection of a field computed on the grid by the 2D solvers. -/
theorem advect2 {n : Fin 2 → ℕ} (hn : ∀ d, 0 < n d) {S : Finset (Fin 2 → ℤ)} (hS : NoAlias n S)
    {δ : Fin 2 → ℝ} (hδ : ∀ d, δ d ≠ 0) {rot ux uy : Fld (Fin 2)} (hu : Velocity2 S δ rot ux uy)
    (a : Fld (Fin 2)) {k : Fin 2 → ℤ} (hk : k ∈ S) :
    fftCoef n (fun j => -gridVal n S (ux2 δ rot) j * gridVal n S (deriv δ 0 a) j
      - gridVal n S (uy2 δ rot) j * gridVal n S (deriv δ 1 a) j) k = -advect S δ ![ux, uy] a k := by
  have e : ∀ j, -gridVal n S (ux2 δ rot) j * gridVal n S (deriv δ 0 a) j
      - gridVal n S (uy2 δ rot) j * gridVal n S (deriv δ 1 a) j
      = -(gridVal n S (ux2 δ rot) j * gridVal n S (deriv δ 0 a) j
        + gridVal n S (uy2 δ rot) j * gridVal n S (deriv δ 1 a) j) := fun j => by ring
  rw [fft_congr n e, fft_neg, fft_add, fft_prod hn hS _ _ hk, fft_prod hn hS _ _ hk]
  simp only [advect, Fin.sum_univ_two, Matrix.cons_val_zero, Matrix.cons_val_one, pd_deriv]
  rw [exact_congr (fun k hk => (velocity_unique hδ hu hk).1) (fun _ _ => rfl),
    exact_congr (fun k hk => (velocity_unique hδ hu hk).2) (fun _ _ => rfl)]

/-- C57 (ns2d): `∂t ζ = -u·∇ζ - β uy`. -/
theorem C57_ns2d {n : Fin 2 → ℕ} (hn : ∀ d, 0 < n d) {S : Finset (Fin 2 → ℤ)} (hS : NoAlias n S)
    {δ : Fin 2 → ℝ} (hδ : ∀ d, δ d ≠ 0) (beta : ℝ) {rot ux uy : Fld (Fin 2)}
    (hu : Velocity2 S δ rot ux uy) {k : Fin 2 → ℤ} (hk : k ∈ S) :
    ns2d n S δ beta rot k = -advect S δ ![ux, uy] rot k - beta * uy k := by
  rw [ns2d, if_pos hk, ← advect2 hn hS hδ hu rot hk, ← (velocity_unique hδ hu hk).2,
    ← fft_grid hn hS.distinct (uy2 δ rot) hk, ← fft_mul, ← fft_sub]
  refine fft_congr n (fun j => ?_) k
  simp only [computeFrot]
  split
  · rename_i h; rw [h]; push_cast; ring
  · ring

/-- C57 (ns2d.strat): `∂t ζ = -u·∇ζ + ∂x b`, `∂t b = -u·∇b - N² uy`. -/
theorem C57_ns2d_strat {n : Fin 2 → ℕ} (hn : ∀ d, 0 < n d) {S : Finset (Fin 2 → ℤ)}
    (hS : NoAlias n S) {δ : Fin 2 → ℝ} (hδ : ∀ d, δ d ≠ 0) (N : ℝ) {rot ux uy : Fld (Fin 2)}
    (b : Fld (Fin 2)) (hu : Velocity2 S δ rot ux uy) {k : Fin 2 → ℤ} (hk : k ∈ S) :
    (ns2dStrat n S δ N rot b).1 k = -advect S δ ![ux, uy] rot k + pd δ 0 b k ∧
      (ns2dStrat n S δ N rot b).2 k = -advect S δ ![ux, uy] b k - N ^ 2 * uy k := by
  constructor
  · simp only [ns2dStrat, if_pos hk]
    rw [advect2 hn hS hδ hu rot hk, pd_deriv]
  · simp only [ns2dStrat, if_pos hk]
    rw [fft_sub, advect2 hn hS hδ hu b hk, fft_mul, fft_grid hn hS.distinct _ hk,
      (velocity_unique hδ hu hk).2]

/-- C57 (ns2d.bouss): `∂t ζ = -u·∇ζ + ∂x b`, `∂t b = -u·∇b`. -/
theorem C57_ns2d_bouss {n : Fin 2 → ℕ} (hn : ∀ d, 0 < n d) {S : Finset (Fin 2 → ℤ)}
    (hS : NoAlias n S) {δ : Fin 2 → ℝ} (hδ : ∀ d, δ d ≠ 0) {rot ux uy : Fld (Fin 2)}
    (b : Fld (Fin 2)) (hu : Velocity2 S δ rot ux uy) {k : Fin 2 → ℤ} (hk : k ∈ S) :
    (ns2dBouss n S δ rot b).1 k = -advect S δ ![ux, uy] rot k + pd δ 0 b k ∧
      (ns2dBouss n S δ rot b).2 k = -advect S δ ![ux, uy] b k := by
  constructor
  · simp only [ns2dBouss, if_pos hk]
    rw [fft_add, advect2 hn hS hδ hu rot hk, fft_grid hn hS.distinct _ hk, pd_deriv]
  · simp only [ns2dBouss, if_pos hk]
    rw [advect2 hn hS hδ hu b hk]

/-- C57 (ns3d): the tendency is the projection of `-(v·∇)v - f ez × v`, for every projection; with
`no_vz_kz0` its vertical component is zero at `kz = 0`. -/
theorem C57_ns3d {n : Fin 3 → ℕ} (hn : ∀ d, 0 < n d) {S : Finset (Fin 3 → ℤ)} (hS : NoAlias n S)
    (δ : Fin 3 → ℝ) (f : Option ℝ) (p : Projection) (noVzKz0 : Bool) (v : (Fin 3 → ℤ) → V3)
    {k : Fin 3 → ℤ} (hk : k ∈ S) :
    ns3d n S δ f p noVzKz0 v k =
      let T := projector p (wave3 δ k) (navierStokes S δ (f.getD 0) v k)
      if noVzKz0 = true ∧ δ 2 * k 2 = 0 then ⟨T.x, T.y, 0⟩ else T := by
  obtain ⟨a, ha⟩ := lamb_eq hn hS δ f v hk
  have hT : projector p (wave3 δ k) (lamb n S δ f v k)
      = projector p (wave3 δ k) (navierStokes S δ (f.getD 0) v k) := by
    rw [ha, projector_linear, projector_grad]
    simp [add, zero]
  rw [ns3d, if_pos hk]
  have hz : |(wave3 δ k).z| = 0 ↔ δ 2 * k 2 = 0 := abs_eq_zero
  simp only [projectState, hT, hz]
  split <;> rfl

/-- C57 (ns3d.strat, and ns3d.bouss for which `N = 0`): the buoyancy force `b ez` is added, and
`∂t b = -v·∇b - N² vz` for a divergence-free velocity. -/
theorem C57_ns3d_strat {n : Fin 3 → ℕ} (hn : ∀ d, 0 < n d) {S : Finset (Fin 3 → ℤ)}
    (hS : NoAlias n S) (δ : Fin 3 → ℝ) (f : Option ℝ) (N : ℝ) (p : Projection)
    (v : (Fin 3 → ℤ) → V3) (b : Fld (Fin 3)) (hdiv : ∀ k ∈ S, kdot (wave3 δ k) (v k) = 0)
    {k : Fin 3 → ℤ} (hk : k ∈ S) :
    (ns3dStrat n S δ f N p false v b k).v
        = projector p (wave3 δ k) (add (navierStokes S δ (f.getD 0) v k) ⟨0, 0, b k⟩) ∧
      (ns3dStrat n S δ f N p false v b k).b
        = some (-advect S δ (comp v) b k - N ^ 2 * (v k).z) := by
  obtain ⟨a, ha⟩ := lamb_eq hn hS δ f v hk
  have hT : projector p (wave3 δ k) ⟨(lamb n S δ f v k).x, (lamb n S δ f v k).y,
        (lamb n S δ f v k).z + b k⟩
      = projector p (wave3 δ k) (add (navierStokes S δ (f.getD 0) v k) ⟨0, 0, b k⟩) := by
    have e : (⟨(lamb n S δ f v k).x, (lamb n S δ f v k).y, (lamb n S δ f v k).z + b k⟩ : V3)
        = add (add (navierStokes S δ (f.getD 0) v k) ⟨0, 0, b k⟩)
          ⟨Complex.I * (wave3 δ k).x * a, Complex.I * (wave3 δ k).y * a,
            Complex.I * (wave3 δ k).z * a⟩ := by
      rw [ha]; ext <;> simp only [add] <;> ring
    rw [e, projector_linear, projector_grad]
    simp [add, zero]
  have hB : divVb n S δ v b k = advect S δ (comp v) b k := by
    have e0 : fftCoef n (fun j => gridVal n S (fun k => (v k).x) j * gridVal n S b j) k
        = exactProduct S (comp v 0) b k := fft_prod hn hS _ _ hk
    have e1 : fftCoef n (fun j => gridVal n S (fun k => (v k).y) j * gridVal n S b j) k
        = exactProduct S (comp v 1) b k := fft_prod hn hS _ _ hk
    have e2 : fftCoef n (fun j => gridVal n S (fun k => (v k).z) j * gridVal n S b j) k
        = exactProduct S (comp v 2) b k := fft_prod hn hS _ _ hk
    simp only [divVb, fftVec, gridVec, e0, e1, e2, wave3, advect, Fin.sum_univ_three]
    have l0 := exact_leibniz S δ 0 (comp v 0) b k
    have l1 := exact_leibniz S δ 1 (comp v 1) b k
    have l2 := exact_leibniz S δ 2 (comp v 2) b k
    have hz : exactProduct S (pd δ 0 (comp v 0)) b k + exactProduct S (pd δ 1 (comp v 1)) b k
        + exactProduct S (pd δ 2 (comp v 2)) b k = 0 := by
      rw [← exact_add_left, ← exact_add_left]
      simp only [exactProduct]
      refine sum_eq_zero fun q hq => sum_eq_zero fun r _ => ?_
      have := hdiv q hq
      simp only [kdot, wave3] at this
      split
      · simp only [pd, comp]
        linear_combination (Complex.I * b r) * this
      · rfl
    linear_combination l0 + l1 + l2 + hz
  simp only [ns3dStrat, if_pos hk]
  constructor
  · simp only [projectState, Bool.false_eq_true, false_and, if_false, hT]
  · simp only [projectState, Bool.false_eq_true, false_and, if_false, hB]

/-- C57 (sw1l): the rotating shallow-water equations
`∂t u = -(u·∇)u - f ez × u - c² ∇η`, `∂t η = -∇·((1 + η) u)`. -/
theorem C57_sw1l (p : Sw1l.Par) {n : Fin 2 → ℕ} (hn : ∀ d, 0 < n d) {S : Finset (Fin 2 → ℤ)}
    (hS : NoAlias n S) (u : (Fin 2 → ℤ) → Sw1l.UEta) {k : Fin 2 → ℤ} (hk : k ∈ S) :
    let ux : Fld (Fin 2) := fun k => (u k).ux
    let uy : Fld (Fin 2) := fun k => (u k).uy
    let eta : Fld (Fin 2) := fun k => (u k).eta
    let T := Sw1l.sw1l p n S u k
    T.ux = -advect S p.δ ![ux, uy] ux k + p.f * uy k - p.c2 * pd p.δ 0 eta k ∧
    T.uy = -advect S p.δ ![ux, uy] uy k - p.f * ux k - p.c2 * pd p.δ 1 eta k ∧
    T.eta = -(pd p.δ 0 ux k + pd p.δ 1 uy k)
      - (pd p.δ 0 (exactProduct S eta ux) k + pd p.δ 1 (exactProduct S eta uy) k) := by
  intro ux uy eta T
  set rot : Fld (Fin 2) := fun k => pd p.δ 0 uy k - pd p.δ 1 ux k with hrot
  have hr : (fun k => Sw1l.rotOf p k (u k).ux (u k).uy) = rot := by
    funext k; simp only [hrot, pd, Sw1l.rotOf, Sw1l.Par.kx, Sw1l.Par.ky, ux, uy]; ring
  have hra : ∀ j : Pt n, (if p.f ≠ 0 then gridVal n S rot j + p.f else gridVal n S rot j)
      = gridVal n S rot j + p.f := by
    intro j; split
    · rfl
    · rename_i h; push Not at h; rw [h]; simp
  have gux : ∀ {a : Fld (Fin 2)}, fftCoef n (gridVal n S a) k = a k :=
    fun {a} => fft_grid hn hS.distinct a hk
  have hpr : fftCoef n (fun j => p.c2 * gridVal n S eta j
      + 0.5 * (gridVal n S ux j ^ 2 + gridVal n S uy j ^ 2)) k
      = p.c2 * eta k + 1 / 2 * (exactProduct S ux ux k + exactProduct S uy uy k) := by
    rw [fft_add, fft_mul, gux, fft_mul, fft_add]
    simp only [pow_two]
    rw [fft_prod hn hS _ _ hk, fft_prod hn hS _ _ hk]
    norm_num
  have h1 : fftCoef n (fun j => (gridVal n S rot j + p.f) * gridVal n S uy j) k
      = exactProduct S uy (pd p.δ 0 uy) k - exactProduct S uy (pd p.δ 1 ux) k + p.f * uy k := by
    have e : ∀ j, (gridVal n S rot j + p.f) * gridVal n S uy j
        = gridVal n S uy j * gridVal n S rot j + p.f * gridVal n S uy j := fun j => by ring
    rw [fft_congr n e, fft_add, fft_prod hn hS _ _ hk, fft_mul, gux, hrot, exact_sub_right]
  have h2 : fftCoef n (fun j => -(gridVal n S rot j + p.f) * gridVal n S ux j) k
      = -(exactProduct S ux (pd p.δ 0 uy) k - exactProduct S ux (pd p.δ 1 ux) k) - p.f * ux k := by
    have e : ∀ j, -(gridVal n S rot j + p.f) * gridVal n S ux j
        = -(gridVal n S ux j * gridVal n S rot j) - p.f * gridVal n S ux j := fun j => by ring
    rw [fft_congr n e, fft_sub, fft_neg, fft_prod hn hS _ _ hk, fft_mul, gux, hrot, exact_sub_right]
  have h3 : ∀ a : Fld (Fin 2), fftCoef n (fun j => (gridVal n S eta j + 1) * gridVal n S a j) k
      = exactProduct S eta a k + a k := by
    intro a
    have e : ∀ j, (gridVal n S eta j + 1) * gridVal n S a j
        = gridVal n S eta j * gridVal n S a j + gridVal n S a j := fun j => by ring
    rw [fft_congr n e, fft_add, fft_prod hn hS _ _ hk, gux]
  have hT : T = ⟨fftCoef n (fun j => (gridVal n S rot j + p.f) * gridVal n S uy j) k
        - Complex.I * p.kx k * fftCoef n (fun j => p.c2 * gridVal n S eta j
          + 0.5 * (gridVal n S ux j ^ 2 + gridVal n S uy j ^ 2)) k,
      fftCoef n (fun j => -(gridVal n S rot j + p.f) * gridVal n S ux j) k
        - Complex.I * p.ky k * fftCoef n (fun j => p.c2 * gridVal n S eta j
          + 0.5 * (gridVal n S ux j ^ 2 + gridVal n S uy j ^ 2)) k,
      -Sw1l.divOf p k (fftCoef n (fun j => (gridVal n S eta j + 1) * gridVal n S ux j) k)
        (fftCoef n (fun j => (gridVal n S eta j + 1) * gridVal n S uy j) k)⟩ := by
    simp only [T, Sw1l.sw1l, Sw1l.trunc, if_pos hk, hr, hra]
    rfl
  rw [hT, hpr, h1, h2, h3, h3]
  have hx0 := exact_half S p.δ 0 ux k
  have hx1 := exact_half S p.δ 1 ux k
  have hy0 := exact_half S p.δ 0 uy k
  have hy1 := exact_half S p.δ 1 uy k
  refine ⟨?_, ?_, ?_⟩
  · simp only [advect, Fin.sum_univ_two, Matrix.cons_val_zero, Matrix.cons_val_one, Sw1l.Par.kx, pd]
    linear_combination hx0 + hy0
  · simp only [advect, Fin.sum_univ_two, Matrix.cons_val_zero, Matrix.cons_val_one, Sw1l.Par.ky, pd]
    linear_combination hx1 + hy1
  · simp only [Sw1l.divOf, pd, Sw1l.Par.kx, Sw1l.Par.ky]
    ring

/-- C57 (burgers1d and burgers1d.skew_sym): both solvers integrate `∂t u = -u ∂x u`. -/
theorem C57_burgers {nx : ℕ} (hn : 0 < nx) {S : Finset (Unit → ℤ)} (hS : NoAlias (fun _ => nx) S)
    (δ : ℝ) (u : Fld Unit) {k : Unit → ℤ} (hk : Burgers.kept nx S k) :
    Burgers.convective nx S δ u k = -advect S (fun _ => δ) (fun _ => u) u k ∧
      Burgers.skewSym nx S δ u k = -advect S (fun _ => δ) (fun _ => u) u k := by
  have hn' : ∀ _ : Unit, 0 < nx := fun _ => hn
  have hpx : Burgers.px δ u = pd (fun _ => δ) () u := rfl
  have ha : advect S (fun _ => δ) (fun _ => u) u k = exactProduct S u (pd (fun _ => δ) () u) k := by
    simp [advect]
  constructor
  · rw [Burgers.convective, if_pos hk, ha, ← fft_prod (n := fun _ => nx) hn' hS _ _ hk.1, ← fft_neg]
    refine fft_congr _ (fun j => ?_) k
    rw [hpx]; ring
  · have e : ∀ j : Pt (fun _ : Unit => nx), -0.5 * gridVal (fun _ => nx) S u j
          * gridVal (fun _ => nx) S (Burgers.px δ u) j
        = -0.5 * (gridVal (fun _ => nx) S u j * gridVal (fun _ => nx) S (Burgers.px δ u) j) :=
      fun j => by ring
    have e2 : fftCoef (fun _ : Unit => nx) (fun j => gridVal (fun _ => nx) S u j ^ 2) k
        = exactProduct S u u k := by
      simp only [pow_two]
      exact fft_prod (n := fun _ => nx) hn' hS _ _ hk.1
    rw [Burgers.skewSym, if_pos hk, fft_congr _ e, fft_mul, fft_prod (n := fun _ => nx) hn' hS _ _ hk.1,
      ha, Burgers.px, e2, hpx]
    have h := exact_half S (fun _ => δ) () u k
    norm_num at h ⊢
    linear_combination (1 / 2 : ℂ) * h

/-- A flow meeting the hypotheses: `ζ = 2 cos x + 2 cos y`, on a 4 x 4 grid. -/
example :
    let S : Finset (Fin 2 → ℤ) := {![1, 0], ![-1, 0], ![0, 1], ![0, -1]}
    NoAlias (fun _ => 4) S ∧
      Velocity2 S (fun _ => 1) (fun _ => 1) (fun k => Complex.I * (k 1 : ℂ))
        (fun k => -Complex.I * (k 0 : ℂ)) := by
  intro S
  refine ⟨noAlias_of_small _ _ (by decide), ⟨fun k _ => ?_, fun k hk _ => ?_, by simp⟩⟩
  · simp only [pd]; push_cast; ring
  · have h : (k 0) ^ 2 + (k 1) ^ 2 = 1 := by revert k; decide
    have h' : (k 0 : ℂ) ^ 2 + (k 1 : ℂ) ^ 2 = 1 := by exact_mod_cast h
    simp only [pd]; push_cast
    linear_combination h' - ((k 0 : ℂ) ^ 2 + (k 1 : ℂ) ^ 2) * Complex.I_sq

end

end Verif.Galerkin
