import Verif.ExactFlows.Lemmas3
import Verif.EndToEnd.PropsMore

/-!
# C108: the simulations give exactly the exact solutions of the equations for which the nonlinear terms vanish

Parallel flows, Taylor-Green vortices in two dimensions, Beltrami flows in three dimensions, layers of a stratified fluid, geostrophic
jets: whatever the time scheme, the time steps, the phase shifts and the contents of the work arrays, each mode is multiplied by the
exponential of its damping.
-/

set_option linter.unusedSectionVars false

namespace Verif.ExactFlows

open Verif.Fourier Verif.Vectors Verif.Energy Verif.Galerkin Verif.Schemes Verif.EndToEnd Verif.Symmetry Verif.Convergence Finset

noncomputable section

section general

variable {D V : Type*} {S : Finset (D → ℤ)} {A : Set (D → ℤ)}

theorem Only.add {u w : V → Fld D} (hu : Only S A u) (hw : Only S A w) : Only S A fun v k => u v k + w v k := by
  intro v k h
  by_cases h1 : u v k = 0
  · exact hw v k fun h2 => h (by simp only [h1, h2, add_zero])
  · exact hu v k h1

theorem Only.mul {u : V → Fld D} (hu : Only S A u) (g : (D → ℤ) → ℂ) : Only S A fun v k => g k * u v k := fun v k h =>
  hu v k fun h0 => h (by simp only [h0, mul_zero])

theorem Only.out {u : V → Fld D} (hu : Only S A u) (v : V) (k : D → ℤ) (hk : k ∉ S) : u v k = 0 := by_contra fun h => hk (hu v k h).2

theorem Perpendicular.add [Fintype D] {a : D → ℝ} {u w : D → Fld D} (hu : Perpendicular a u) (hw : Perpendicular a w) :
    Perpendicular a fun d k => u d k + w d k := by
  intro k
  simp only [mul_add, sum_add_distrib, hu k, hw k, add_zero]

theorem Perpendicular.mul [Fintype D] {a : D → ℝ} {u : D → Fld D} (hu : Perpendicular a u) (g : (D → ℤ) → ℂ) :
    Perpendicular a fun d k => g k * u d k := by
  intro k
  calc ∑ d, (a d : ℂ) * (g k * u d k) = g k * ∑ d, (a d : ℂ) * u d k := by rw [mul_sum]; exact sum_congr rfl fun d _ => by ring
    _ = 0 := by rw [hu k, mul_zero]

end general

section two

variable {n : Fin 2 → ℕ} {S G : Finset (Fin 2 → ℤ)}

/-- C108 (ns2d): when any two wavevectors of the initial vorticity are parallel or have the same length, each mode decays with its
viscosities. (Whatever the grid: without any condition on the truncation.) -/
theorem C108_ns2d (n : Fin 2 → ℕ) (hG : S ⊆ G) {δ : Fin 2 → ℝ} {A : Set (Fin 2 → ℤ)} (hA : ParallelOrSameLength δ A) {nu : Dissip.Nu}
    (hnu : Nu.Ok nu) {c : Numerics (Fin 2) Unit} (hc : TimeSteps c) {rot0 : Unit → Fld (Fin 2)} (h0 : Only S A rot0) (k : ℕ) :
    runNs2d n S G δ 0 nu c noForce rot0 k = decayed δ nu rot0 (elapsed c.dt k) :=
  run_decay hG (Q := Only S A) ⟨fun _ _ => Only.add, fun g _ hu => Only.mul hu g, fun _ => Only.out,
    fun u hu _ k => ns2d_zero hA (fun k h => (hu () k h).1) n k, fun _ _ => rfl⟩ δ hnu hc h0 k

/-- C108 (ns2d): these fields are the exact solution of the truncated equations with this initial vorticity. -/
theorem C108_ns2d_flow {δ : Fin 2 → ℝ} (hδ : ∀ d, δ d ≠ 0) {A : Set (Fin 2 → ℤ)} (hA : ParallelOrSameLength δ A) (nu : Dissip.Nu)
    {rot0 : Fld (Fin 2)} (h0 : Only S A fun _ : Unit => rot0) (hr : RealField S rot0) (T : ℝ) :
    Flow2 S δ 0 nu (fun _ => 0) T fun t => decayed δ nu (fun _ : Unit => rot0) t () := by
  have hdec : ∀ t, decayed δ nu (fun _ : Unit => rot0) t () = fun k => ((Real.exp (-(t * (nu.nu2 * wavenumberSq δ k
      + nu.nu4 * wavenumberSq δ k ^ 2 + nu.nu8 * wavenumberSq δ k ^ 4))) : ℝ) : ℂ) * rot0 k := by
    intro t
    funext k
    simp only [decayed]
    push_cast
    ring
  have hneg : ∀ k, wavenumberSq δ (-k) = wavenumberSq δ k := fun k => by simp [wavenumberSq]
  refine ⟨fun t _ => ?_, fun t _ ux uy hu k hk => ?_⟩
  · rw [hdec]
    exact ⟨hr.1.mul _ fun k => by rw [hneg], fun k hk => by simp only [hr.2 k hk, mul_zero]⟩
  · have hrt : ∀ q, decayed δ nu (fun _ : Unit => rot0) t () q ≠ 0 → q ∈ A := fun q hq =>
      (h0 () q fun h => hq (by simp [decayed, h])).1
    have e : advect S δ ![ux, uy] (decayed δ nu (fun _ : Unit => rot0) t ()) k = 0 := by
      rw [← advect_pairs_zero (S := S) hA hrt k]
      simp only [advect, Fin.sum_univ_two, exactProduct, Matrix.cons_val_zero, Matrix.cons_val_one]
      congr 1 <;> refine sum_congr rfl fun p hp => sum_congr rfl fun q _ => ?_
      · rw [(velocity_unique hδ hu hp).1]
      · rw [(velocity_unique hδ hu hp).2]
    rw [e]
    have hd : HasDerivAt (fun t : ℝ => decayed δ nu (fun _ : Unit => rot0) t () k) (-dissipation δ nu (decayed δ nu (fun _ : Unit => rot0) t ()) k) t := by
      simp only [decayed, dissipation]
      change HasDerivAt (fun t : ℝ => rot0 k * Complex.exp (-(t * (nu.nu2 * wavenumberSq δ k + nu.nu4 * wavenumberSq δ k ^ 2
        + nu.nu8 * wavenumberSq δ k ^ 4) : ℝ))) (-(((nu.nu2 * wavenumberSq δ k + nu.nu4 * wavenumberSq δ k ^ 2
        + nu.nu8 * wavenumberSq δ k ^ 4 : ℝ) : ℂ) * (rot0 k * Complex.exp (-(t * (nu.nu2 * wavenumberSq δ k + nu.nu4 * wavenumberSq δ k ^ 2
        + nu.nu8 * wavenumberSq δ k ^ 4) : ℝ))))) t
      generalize (nu.nu2 * wavenumberSq δ k + nu.nu4 * wavenumberSq δ k ^ 2 + nu.nu8 * wavenumberSq δ k ^ 4) = r
      have h1 : HasDerivAt (fun t : ℝ => -((t * r : ℝ) : ℂ)) (-(r : ℂ)) t := by
        have h := ((hasDerivAt_id t).mul_const r).ofReal_comp.neg
        have e1 : -((1 * r : ℝ) : ℂ) = -(r : ℂ) := by rw [one_mul]
        rw [e1] at h
        exact h
      have h2 := (h1.cexp).const_mul (rot0 k)
      have e2 : -((r : ℂ) * (rot0 k * Complex.exp (-((t * r : ℝ) : ℂ)))) = rot0 k * (Complex.exp (-((t * r : ℝ) : ℂ)) * -(r : ℂ)) := by ring
      rw [e2]
      exact h2
    convert hd using 1
    simp

/-- C108 (ns2d with the beta effect): zonal flows, whose vorticity depends only on `y`. -/
theorem C108_ns2d_zonal (n : Fin 2 → ℕ) (hG : S ⊆ G) (δ : Fin 2 → ℝ) (beta : ℝ) {nu : Dissip.Nu} (hnu : Nu.Ok nu)
    {c : Numerics (Fin 2) Unit} (hc : TimeSteps c) {rot0 : Unit → Fld (Fin 2)} (h0 : Only S {k | k 0 = 0} rot0) (k : ℕ) :
    runNs2d n S G δ beta nu c noForce rot0 k = decayed δ nu rot0 (elapsed c.dt k) :=
  run_decay hG (Q := Only S {k | k 0 = 0}) ⟨fun _ _ => Only.add, fun g _ hu => Only.mul hu g, fun _ => Only.out,
    fun u hu _ k => ns2d_layers (fun k h => (hu () k h).1) n beta k, fun _ _ => rfl⟩ δ hnu hc h0 k

/-- C108 (ns2d.strat): horizontal flows and stratifications which depend only on the vertical coordinate (`y`). -/
theorem C108_ns2d_strat (n : Fin 2 → ℕ) (hG : S ⊆ G) (δ : Fin 2 → ℝ) (N : ℝ) {nu : Dissip.Nu} (hnu : Nu.Ok nu)
    {c : Numerics (Fin 2) (Fin 2)} (hc : TimeSteps c) {u0 : Fin 2 → Fld (Fin 2)} (h0 : Only S {k | k 0 = 0} u0) (k : ℕ) :
    runStrat2d n S G δ N nu c noForce u0 k = decayed δ nu u0 (elapsed c.dt k) :=
  run_decay hG (Q := Only S {k | k 0 = 0}) ⟨fun _ _ => Only.add, fun g _ hu => Only.mul hu g, fun _ => Only.out,
    fun u hu v k => by
      obtain ⟨h1, h2⟩ := strat_layers (S := S) (δ := δ) (fun k h => (hu 0 k h).1) (fun k h => (hu 1 k h).1) n N k
      fin_cases v
      · exact h1
      · exact h2, fun _ _ => rfl⟩ δ hnu hc h0 k

/-- Geostrophic jets in the direction perpendicular to `a`. -/
structure Jet (S : Finset (Fin 2 → ℤ)) (p : Sw1l.Par) (a : Fin 2 → ℝ) (u : Fin 3 → Fld (Fin 2)) : Prop where
  line : Only S (along p.δ a) u
  perp : Perpendicular a ![u 0, u 1]
  balance : Geostrophic p u

theorem Jet.add {p : Sw1l.Par} {a : Fin 2 → ℝ} {u w : Fin 3 → Fld (Fin 2)} (hu : Jet S p a u) (hw : Jet S p a w) :
    Jet S p a fun v k => u v k + w v k := by
  refine ⟨hu.line.add hw.line, ?_, ⟨fun k => ?_, fun k => ?_⟩⟩
  · have h := hu.perp.add hw.perp
    convert h using 1
    funext d
    fin_cases d <;> rfl
  · have h1 := hu.balance.x k
    have h2 := hw.balance.x k
    simp only [pd] at h1 h2 ⊢
    linear_combination h1 + h2
  · have h1 := hu.balance.y k
    have h2 := hw.balance.y k
    simp only [pd] at h1 h2 ⊢
    linear_combination h1 + h2

theorem Jet.mul {p : Sw1l.Par} {a : Fin 2 → ℝ} {u : Fin 3 → Fld (Fin 2)} (hu : Jet S p a u) (g : (Fin 2 → ℤ) → ℂ) :
    Jet S p a fun v k => g k * u v k := by
  refine ⟨hu.line.mul g, ?_, ⟨fun k => ?_, fun k => ?_⟩⟩
  · have h := hu.perp.mul g
    convert h using 1
    funext d
    fin_cases d <;> rfl
  · have h1 := hu.balance.x k
    simp only [pd] at h1 ⊢
    linear_combination g k * h1
  · have h1 := hu.balance.y k
    simp only [pd] at h1 ⊢
    linear_combination g k * h1

/-- C108 (sw1l): geostrophic jets, whose velocity is perpendicular to the direction `a` in which the fields vary (for `f = 0`: the
parallel flows with a flat surface). The viscosities also damp the surface, so that the balance is kept. -/
theorem C108_sw1l (hn : ∀ d, 0 < n d) (hS : NoAlias n S) (hG : S ⊆ G) (p : Sw1l.Par) {a : Fin 2 → ℝ} {nu : Dissip.Nu} (hnu : Nu.Ok nu)
    {c : Numerics (Fin 2) (Fin 3)} (hc : TimeSteps c) {u0 : Fin 3 → Fld (Fin 2)} (hl : Only S (along p.δ a) u0)
    (hp : Perpendicular a ![u0 0, u0 1]) (hg : Geostrophic p u0) (k : ℕ) :
    runSw1l p n S G nu c noForce u0 k = decayed p.δ nu u0 (elapsed c.dt k) :=
  run_decay hG (Q := Jet S p a) ⟨fun _ _ => Jet.add, fun g _ hu => Jet.mul hu g, fun _ hu => hu.line.out,
    fun u hu v k => sw1l_line p hn hS hu.perp (fun d q h => (hu.line d q h).1) hu.balance v k, fun _ _ => rfl⟩ p.δ hnu hc ⟨hl, hp, hg⟩ k

/-- C108 (sw1l.modified). -/
theorem C108_sw1l_modified (hn : ∀ d, 0 < n d) (hS : NoAlias n S) (hG : S ⊆ G) (p : Sw1l.Par) (hδ : ∀ d, p.δ d ≠ 0) {a : Fin 2 → ℝ}
    {nu : Dissip.Nu} (hnu : Nu.Ok nu) {c : Numerics (Fin 2) (Fin 3)} (hc : TimeSteps c) {u0 : Fin 3 → Fld (Fin 2)}
    (hl : Only S (along p.δ a) u0) (hp : Perpendicular a ![u0 0, u0 1]) (hg : Geostrophic p u0) (k : ℕ) :
    runModified p n S G nu c noForce u0 k = decayed p.δ nu u0 (elapsed c.dt k) :=
  run_decay hG (Q := Jet S p a) ⟨fun _ _ => Jet.add, fun g _ hu => Jet.mul hu g, fun _ hu => hu.line.out,
    fun u hu v k => modified_line p hδ hn hS hu.perp (fun d q h => (hu.line d q h).1) hu.balance v k, fun _ _ => rfl⟩ p.δ hnu hc ⟨hl, hp, hg⟩ k

end two

section three

variable {n : Fin 3 → ℕ} {S G : Finset (Fin 3 → ℤ)}

/-- C108 (ns3d): Beltrami flows (for example the ABC flows), without rotation of the frame. The initial velocity is unchanged by the
projection of the solver. -/
theorem C108_ns3d_beltrami (n : Fin 3 → ℕ) (hG : S ⊆ G) {δ : Fin 3 → ℝ} {f : Option ℝ} (hf : f.getD 0 = 0) (p : Projection) (noVz : Bool)
    {nu : Dissip.Nu} (hnu : Nu.Ok nu) {c : Numerics (Fin 3) (Fin 3)} (hc : TimeSteps c) {lam : ℂ} {u0 : Fin 3 → Fld (Fin 3)}
    (hB : Beltrami δ lam u0) (hS : ∀ v k, k ∉ S → u0 v k = 0) (hp : ∀ k ∈ S, projV p noVz (wave3 δ k) (vec u0 k) = vec u0 k) (k : ℕ) :
    runNs3d n S G δ f p noVz nu c noForce u0 k = decayed δ nu u0 (elapsed c.dt k) := by
  refine run_decay hG (Q := fun u => Beltrami δ lam u ∧ (∀ v k, k ∉ S → u v k = 0) ∧ Fixed δ p noVz u)
    ⟨fun u w hu hw => ⟨⟨fun k => ?_, fun k => ?_, fun k => ?_⟩, fun v k hk => ?_, fixed_add hu.2.2 hw.2.2⟩,
    fun g u hu => ⟨⟨fun k => ?_, fun k => ?_, fun k => ?_⟩, fun v k hk => ?_, fixed_mul hu.2.2 g⟩, fun u hu => hu.2.1,
    fun u hu v k => tend3d_of_lamb (lamb_beltrami hu.1 hu.2.1 hf n) p noVz v k, fun a ha => project_fixed ha.2.2⟩ δ hnu hc
    ⟨hB, hS, fixed_of hS hp⟩ k
  · have h1 := hu.1.x k
    have h2 := hw.1.x k
    simp only [pd] at h1 h2 ⊢
    linear_combination h1 + h2
  · have h1 := hu.1.y k
    have h2 := hw.1.y k
    simp only [pd] at h1 h2 ⊢
    linear_combination h1 + h2
  · have h1 := hu.1.z k
    have h2 := hw.1.z k
    simp only [pd] at h1 h2 ⊢
    linear_combination h1 + h2
  · simp only [hu.2.1 v k hk, hw.2.1 v k hk, add_zero]
  · have h1 := hu.1.x k
    simp only [pd] at h1 ⊢
    linear_combination g k * h1
  · have h1 := hu.1.y k
    simp only [pd] at h1 ⊢
    linear_combination g k * h1
  · have h1 := hu.1.z k
    simp only [pd] at h1 ⊢
    linear_combination g k * h1
  · simp only [hu.2.1 v k hk, mul_zero]

/-- C108 (ns3d): parallel flows, which vary only in the direction `a` and have no velocity in this direction. -/
theorem C108_ns3d_parallel (hn : ∀ d, 0 < n d) (hA : NoAlias n S) (hG : S ⊆ G) {δ a : Fin 3 → ℝ} {f : Option ℝ} (hf : f.getD 0 = 0)
    (p : Projection) (noVz : Bool) {nu : Dissip.Nu} (hnu : Nu.Ok nu) {c : Numerics (Fin 3) (Fin 3)} (hc : TimeSteps c)
    {u0 : Fin 3 → Fld (Fin 3)} (hl : Only S (along δ a) u0) (ha : Perpendicular a u0)
    (hp : ∀ k ∈ S, projV p noVz (wave3 δ k) (vec u0 k) = vec u0 k) (k : ℕ) :
    runNs3d n S G δ f p noVz nu c noForce u0 k = decayed δ nu u0 (elapsed c.dt k) :=
  run_decay hG (Q := fun u => Only S (along δ a) u ∧ Perpendicular a u ∧ Fixed δ p noVz u)
    ⟨fun _ _ hu hw => ⟨hu.1.add hw.1, hu.2.1.add hw.2.1, fixed_add hu.2.2 hw.2.2⟩,
    fun g _ hu => ⟨hu.1.mul g, hu.2.1.mul g, fixed_mul hu.2.2 g⟩, fun _ hu => hu.1.out,
    fun u hu v k => ns3d_line hn hA hu.2.1 (fun d q h => (hu.1 d q h).1) hf p noVz v k, fun _ h => project_fixed h.2.2⟩ δ hnu hc
    ⟨hl, ha, fixed_of hl.out hp⟩ k

/-- C108 (ns3d.strat; ns3d.bouss with `N = 0`): parallel flows without vertical velocity (needed only when `N ≠ 0`), with a buoyancy
which depends only on `z` and has no mean. -/
theorem C108_ns3d_strat (hn : ∀ d, 0 < n d) (hA : NoAlias n S) (hG : S ⊆ G) {δ a : Fin 3 → ℝ} (hδ : δ 2 ≠ 0) {f : Option ℝ}
    (hf : f.getD 0 = 0) (N : ℝ) (p : Projection) (noVz : Bool) {nu : Dissip.Nu} (hnu : Nu.Ok nu) {c : Numerics (Fin 3) (Fin 4)}
    (hc : TimeSteps c) {u0 : Fin 4 → Fld (Fin 3)} (hl : Only S (along δ a) u0) (ha : Perpendicular a (velocity u0))
    (hp : ∀ k ∈ S, projV p noVz (wave3 δ k) (vec (velocity u0) k) = vec (velocity u0) k)
    (hb : ∀ k, u0 3 k ≠ 0 → k 0 = 0 ∧ k 1 = 0 ∧ k 2 ≠ 0) (hz : N = 0 ∨ ∀ k, u0 2 k = 0) (k : ℕ) :
    runStrat3d n S G δ f N p noVz nu c noForce u0 k = decayed δ nu u0 (elapsed c.dt k) := by
  have hvadd : ∀ u w : Fin 4 → Fld (Fin 3), velocity (fun v k => u v k + w v k) = fun d k => velocity u d k + velocity w d k := by
    intro u w; funext d; fin_cases d <;> rfl
  have hvmul : ∀ (g : (Fin 3 → ℤ) → ℂ) (u : Fin 4 → Fld (Fin 3)), velocity (fun v k => g k * u v k) = fun d k => g k * velocity u d k := by
    intro g u; funext d; fin_cases d <;> rfl
  have hout : ∀ v k, k ∉ S → velocity u0 v k = 0 := by
    intro v k hk
    fin_cases v
    · exact hl.out 0 k hk
    · exact hl.out 1 k hk
    · exact hl.out 2 k hk
  refine run_decay hG (Q := fun u => Only S (along δ a) u ∧ Perpendicular a (velocity u) ∧ Fixed δ p noVz (velocity u) ∧
      (∀ k, u 3 k ≠ 0 → k 0 = 0 ∧ k 1 = 0 ∧ k 2 ≠ 0) ∧ (N = 0 ∨ ∀ k, u 2 k = 0))
    ⟨fun u w hu hw => ⟨hu.1.add hw.1, ?_, ?_, fun k h => ?_, ?_⟩, fun g u hu => ⟨hu.1.mul g, ?_, ?_, fun k h => ?_, ?_⟩, fun u hu => hu.1.out,
    fun u hu v k => strat3_line hn hA hδ hu.2.1 (fun d q h => (hu.1 d q h).1) hu.2.2.2.1 hu.2.2.2.2 hf p noVz v k,
    fun x h => project4_fixed hδ h.2.2.1 fun k hk => (h.2.2.2.1 k hk).2.2⟩ δ hnu hc ⟨hl, ha, fixed_of hout hp, hb, hz⟩ k
  · rw [hvadd]; exact hu.2.1.add hw.2.1
  · rw [hvadd]; exact fixed_add hu.2.2.1 hw.2.2.1
  · by_cases h1 : u 3 k = 0
    · exact hw.2.2.2.1 k fun h2 => h (by simp only [h1, h2, add_zero])
    · exact hu.2.2.2.1 k h1
  · rcases hu.2.2.2.2 with h | h
    · exact .inl h
    · rcases hw.2.2.2.2 with h' | h'
      · exact .inl h'
      · exact .inr fun k => by simp only [h k, h' k, add_zero]
  · rw [hvmul]; exact hu.2.1.mul g
  · rw [hvmul]; exact fixed_mul hu.2.2.1 g
  · exact hu.2.2.2.1 k fun h2 => h (by simp only [h2, mul_zero])
  · rcases hu.2.2.2.2 with h | h
    · exact .inl h
    · exact .inr fun k => by simp only [h k, mul_zero]

end three

/-! ### Examples -/

/-- The vorticity `cos x cos y` (Taylor-Green vortices). -/
def exVortices : Unit → Fld (Fin 2) := fun _ k => if |k 0| = 1 ∧ |k 1| = 1 then 1 / 4 else 0

/-- The four modes of the vortices have the same length. -/
example : ParallelOrSameLength (fun _ => 1) {k | |k 0| = 1 ∧ |k 1| = 1} ∧
    Only (Fintype.piFinset fun _ => Icc (-1) 1) {k | |k 0| = 1 ∧ |k 1| = 1} exVortices ∧ exVortices () ![1, -1] = 1 / 4 := by
  refine ⟨fun p hp q hq => .inr ?_, fun v k h => ?_, by simp [exVortices]⟩
  · have hs : ∀ k : Fin 2 → ℤ, |k 0| = 1 ∧ |k 1| = 1 → wavenumberSq (fun _ => 1) k = 2 := by
      rintro k ⟨h0, h1⟩
      have a0 : k 0 ^ 2 = 1 := by rw [← sq_abs, h0]; rfl
      have a1 : k 1 ^ 2 = 1 := by rw [← sq_abs, h1]; rfl
      have b0 : (k 0 : ℝ) ^ 2 = 1 := by exact_mod_cast a0
      have b1 : (k 1 : ℝ) ^ 2 = 1 := by exact_mod_cast a1
      simp only [wavenumberSq, Fin.sum_univ_two, one_mul, b0, b1]
      norm_num
    rw [hs p hp, hs q hq]
  · have hk : |k 0| = 1 ∧ |k 1| = 1 := by
      by_contra hn
      exact h (by simp only [exVortices, if_neg hn])
    refine ⟨hk, Fintype.mem_piFinset.2 fun d => ?_⟩
    have := abs_le.1 (show |k d| ≤ 1 by fin_cases d; exacts [hk.1.le, hk.2.le])
    exact mem_Icc.2 this

/-- The velocity `(sin z, cos z, 0)`. -/
def exBeltrami : Fin 3 → Fld (Fin 3) :=
  ![fun k => if k = ![0, 0, 1] then -Complex.I / 2 else if k = ![0, 0, -1] then Complex.I / 2 else 0,
    fun k => if k = ![0, 0, 1] ∨ k = ![0, 0, -1] then 1 / 2 else 0, fun _ => 0]

/-- It is a Beltrami flow, unchanged by the projection, and also a parallel flow. -/
example : Beltrami (fun _ => 1) 1 exBeltrami ∧ Only {![0, 0, 1], ![0, 0, -1]} (along (fun _ => 1) ![0, 0, 1]) exBeltrami ∧
    Perpendicular ![0, 0, 1] exBeltrami ∧
    ∀ k ∈ ({![0, 0, 1], ![0, 0, -1]} : Finset (Fin 3 → ℤ)), projV .none false (wave3 (fun _ => 1) k) (vec exBeltrami k) = vec exBeltrami k := by
  have hne : (![0, 0, -1] : Fin 3 → ℤ) ≠ ![0, 0, 1] := by decide
  have cases3 : ∀ k : Fin 3 → ℤ, k = ![0, 0, 1] ∨ k = ![0, 0, -1] ∨ (k ≠ ![0, 0, 1] ∧ k ≠ ![0, 0, -1]) := fun k => by tauto
  refine ⟨⟨fun k => ?_, fun k => ?_, fun k => ?_⟩, fun v k h => ?_, fun k => ?_, fun k hk => ?_⟩
  · rcases cases3 k with rfl | rfl | ⟨h1, h2⟩
    · simp [exBeltrami, pd]; ring
    · simp [exBeltrami, pd, hne]; ring
    · simp [exBeltrami, pd, h1, h2]
  · rcases cases3 k with rfl | rfl | ⟨h1, h2⟩
    · simp [exBeltrami, pd]; linear_combination -Complex.I_sq / 2
    · simp [exBeltrami, pd, hne]; linear_combination -Complex.I_sq / 2
    · simp [exBeltrami, pd, h1, h2]
  · rcases cases3 k with rfl | rfl | ⟨h1, h2⟩
    · simp [exBeltrami, pd]
    · simp [exBeltrami, pd]
    · simp [exBeltrami, pd, h1, h2]
  · rcases cases3 k with rfl | rfl | ⟨h1, h2⟩
    · exact ⟨⟨1, fun d => by fin_cases d <;> simp⟩, by decide⟩
    · exact ⟨⟨-1, fun d => by fin_cases d <;> simp⟩, by decide⟩
    · exact absurd (by fin_cases v <;> simp [exBeltrami, h1, h2]) h
  · simp [Fin.sum_univ_three, exBeltrami]
  · simp only [mem_insert, mem_singleton] at hk
    have hz : ∀ k : Fin 3 → ℤ, k 0 = 0 → k 1 = 0 → projV .none false (wave3 (fun _ => 1) k) (vec exBeltrami k) = vec exBeltrami k := by
      intro k h0 h1
      simp [projV, projector, perpk, kradial, wave3, vec, h0, h1, exBeltrami]
    rcases hk with rfl | rfl
    · exact hz _ rfl rfl
    · exact hz _ rfl rfl

/-- The jet `ux = 2 sin y` with the surface `η = 2 cos y`, for `f = c² = 1`. -/
def exJet : Fin 3 → Fld (Fin 2) :=
  ![fun k => if k = ![0, 1] then -Complex.I else if k = ![0, -1] then Complex.I else 0, fun _ => 0,
    fun k => if k = ![0, 1] ∨ k = ![0, -1] then 1 else 0]

/-- It is in geostrophic balance. -/
example : Only {![0, 1], ![0, -1]} (along (fun _ => 1) ![0, 1]) exJet ∧ Perpendicular ![0, 1] ![exJet 0, exJet 1] ∧
    Geostrophic ⟨fun _ => 1, 1, 1⟩ exJet ∧ NoAlias (fun _ : Fin 2 => 4) {![0, 1], ![0, -1]} := by
  have hne : (![0, -1] : Fin 2 → ℤ) ≠ ![0, 1] := by decide
  have cases3 : ∀ k : Fin 2 → ℤ, k = ![0, 1] ∨ k = ![0, -1] ∨ (k ≠ ![0, 1] ∧ k ≠ ![0, -1]) := fun k => by tauto
  refine ⟨fun v k h => ?_, fun k => by simp [Fin.sum_univ_two, exJet], ⟨fun k => ?_, fun k => ?_⟩, noAlias_of_small _ _ fun k hk d => ?_⟩
  · rcases cases3 k with rfl | rfl | ⟨h1, h2⟩
    · exact ⟨⟨1, fun d => by fin_cases d <;> simp⟩, by decide⟩
    · exact ⟨⟨-1, fun d => by fin_cases d <;> simp⟩, by decide⟩
    · exact absurd (by fin_cases v <;> simp [exJet, h1, h2]) h
  · rcases cases3 k with rfl | rfl | ⟨h1, h2⟩
    · simp [exJet, pd]
    · simp [exJet, pd]
    · simp [exJet, pd, h1, h2]
  · rcases cases3 k with rfl | rfl | ⟨h1, h2⟩
    · simp [exJet, pd]
    · simp [exJet, pd, hne]
    · simp [exJet, pd, h1, h2]
  · simp only [mem_insert, mem_singleton] at hk
    rcases hk with rfl | rfl <;> fin_cases d <;> simp

end

end Verif.ExactFlows
