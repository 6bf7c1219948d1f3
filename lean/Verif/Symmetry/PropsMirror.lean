import Verif.Symmetry.Mirror3
import Verif.Symmetry.Props

/-! # C98: the runs commute with the symmetries of the box -/

set_option linter.unusedSectionVars false

namespace Verif.Symmetry

open Verif.Fourier Verif.Vectors Verif.Energy Verif.Galerkin Verif.Schemes Verif.EndToEnd Finset

noncomputable section

variable {D V : Type*} [Fintype D] [DecidableEq D]

/-- C98, meaning of `image`: the value of the variable `v` of the image at the point `x` is `a v` times the value of the variable `w v`
at the point which is sent to `x` by the symmetry. -/
theorem C98_image (g : Sym D) {S : Finset (D → ℤ)} {δ : D → ℝ} (hg : g.Fits S δ) (w : V → V) (a : V → ℤ) (u : V → Fld D) (v : V)
    (x : D → ℝ) : value S δ (g.image w a u v) x = a v * value S δ (u (w v)) (g.point x) := by
  simp only [value, Sym.image, mul_sum]
  refine Finset.sum_equiv (backEquiv g) (fun k => (hg.modes k).symm) fun k _ => ?_
  have e : ∑ d, δ d * (k d : ℝ) * x d = ∑ d, δ d * (g.back k d : ℝ) * g.point x d := by
    rw [← Equiv.sum_comp g.π fun d => δ d * (g.back k d : ℝ) * g.point x d]
    refine sum_congr rfl fun d _ => ?_
    rw [back_apply, hg.box]
    simp only [Sym.point, Equiv.symm_apply_apply]
    push_cast
    linear_combination (-(δ d * k d * x d)) * g.unitR d
  change (a v : ℂ) * u (w v) (g.back k) * _ = (a v : ℂ) * (u (w v) (g.back k) * _)
  rw [e]
  change _ = (a v : ℂ) * (u (w v) (g.back k) * Complex.exp (Complex.I * ((∑ d, δ d * (g.back k d : ℝ) * g.point x d : ℝ) : ℂ)))
  ring

/-- C98, the usual truncation (`|k d| ≤ m d` for all the axes) has all the symmetries of the box, and those which exchange axes of the
same length and resolution. -/
theorem C98_truncation (g : Sym D) {m : D → ℤ} (hm : ∀ d, m (g.π d) = m d) {δ : D → ℝ} (hδ : ∀ d, δ (g.π d) = δ d) :
    g.Fits (Fintype.piFinset fun d => Icc (-m d) (m d)) δ := by
  refine ⟨hδ, fun k => ?_⟩
  simp only [Fintype.mem_piFinset, mem_Icc]
  constructor
  · intro h d
    have := h (g.π d)
    rw [back_apply, hm] at this
    rcases mul_self_eq_one_iff.1 (g.unit d) with e | e <;> rw [e] at this <;> constructor <;> linarith [this.1, this.2]
  · intro h d
    obtain ⟨e, rfl⟩ := g.π.surjective d
    have := h e
    rw [back_apply, hm]
    rcases mul_self_eq_one_iff.1 (g.unit e) with e' | e' <;> rw [e'] <;> constructor <;> linarith [this.1, this.2]

/-- C98 (ns2d): the run from the image of the initial vorticity, with the image of the force, is the image of the run, for all the mirror
symmetries, the exchange of the axes and the rotations by a right angle or a half turn of a box which has this symmetry; with a beta
effect, only for the mirror which exchanges north and south. -/
theorem C98_ns2d {n : Fin 2 → ℕ} (hn : ∀ d, 0 < n d) {S G : Finset (Fin 2 → ℤ)} (hS : NoAlias n S) (hSG : S ⊆ G) (g : Sym (Fin 2))
    {δ : Fin 2 → ℝ} (hg : g.Fits S δ) {beta : ℝ} (hb : beta = 0 ∨ (g.π 1 = 1 ∧ g.σ 0 = 1)) (nu : Dissip.Nu) {c c' : Numerics (Fin 2) Unit}
    (hc : SymNumerics g c c') (hdt : ∀ k, c.dt k ≠ 0) {F : ℕ → Unit → Fld (Fin 2)} (hF : ∀ m, Within S (F m)) {rot0 : Unit → Fld (Fin 2)}
    (h0 : Within S rot0) (k : ℕ) :
    runNs2d n S G δ beta nu c' (fun m => imageRot g (F m)) (imageRot g rot0) k = imageRot g (runNs2d n S G δ beta nu c F rot0 k) :=
  run_image g hSG hg id (fun _ => det2 g) (P := id) (fun _ => rfl) (id_onArrays G) (tend2d_image hn hS g hg hb)
    (fun u v k hk => by simp [tend2d, ns2d, hk]) hc hdt hF h0 k

/-- C98 (ns2d.strat, in a vertical plane): the symmetries which keep the vertical axis. With the upside-down one the buoyancy changes of
sign. -/
theorem C98_ns2d_strat {n : Fin 2 → ℕ} (hn : ∀ d, 0 < n d) {S G : Finset (Fin 2 → ℤ)} (hS : NoAlias n S) (hSG : S ⊆ G) (g : Sym (Fin 2))
    {δ : Fin 2 → ℝ} (hg : g.Fits S δ) (h1 : g.π 1 = 1) (N : ℝ) (nu : Dissip.Nu) {c c' : Numerics (Fin 2) (Fin 2)}
    (hc : SymNumerics g c c') (hdt : ∀ k, c.dt k ≠ 0) {F : ℕ → Fin 2 → Fld (Fin 2)} (hF : ∀ m, Within S (F m)) {u0 : Fin 2 → Fld (Fin 2)}
    (h0 : Within S u0) (k : ℕ) :
    runStrat2d n S G δ N nu c' (fun m => imageRotB g (F m)) (imageRotB g u0) k = imageRotB g (runStrat2d n S G δ N nu c F u0 k) :=
  run_image g hSG hg id ![det2 g, g.σ 1] (P := id) (fun _ => rfl) (id_onArrays G) (tendStrat_image hn hS g hg h1 N)
    (fun u v k hk => by fin_cases v <;> simp [tendStrat, ns2dStrat, hk]) hc hdt hF h0 k

/-- C98 (ns3d): all the symmetries of the box; those which keep the vertical axis with `projection` or `no_vz_kz0`; only those which keep
the vertical axis and are rotations in the horizontal planes with a Coriolis force. -/
theorem C98_ns3d {n : Fin 3 → ℕ} (hn : ∀ d, 0 < n d) {S G : Finset (Fin 3 → ℤ)} (hS : NoAlias n S) (hSG : S ⊆ G) (g : Sym (Fin 3))
    {δ : Fin 3 → ℝ} (hg : g.Fits S δ) {f : Option ℝ} (hf : f.getD 0 = 0 ∨ (g.π 2 = 2 ∧ detH g = 1)) {p : Projection} {noVz : Bool}
    (hp : (p = .none ∧ noVz = false) ∨ g.π 2 = 2) (nu : Dissip.Nu) {c c' : Numerics (Fin 3) (Fin 3)} (hc : SymNumerics g c c')
    (hdt : ∀ k, c.dt k ≠ 0) {F : ℕ → Fin 3 → Fld (Fin 3)} (hF : ∀ m, Within S (F m)) {u0 : Fin 3 → Fld (Fin 3)} (h0 : Within S u0) (k : ℕ) :
    runNs3d n S G δ f p noVz nu c' (fun m => imageVel g (F m)) (imageVel g u0) k = imageVel g (runNs3d n S G δ f p noVz nu c F u0 k) :=
  run_image g hSG hg g.π g.σ (P := fun u => components fun k => (projectState p noVz (wave3 δ k) ⟨vec u k, none⟩).v)
    (project_image g hg hp) rfl (tend3d_image hn hS g hg hf hp)
    (fun u v k hk => by fin_cases v <;> simp [tend3d, components, ns3d, hk]) hc hdt hF h0 k

/-- C98 (ns3d.strat, and ns3d.bouss for `N = 0`): the symmetries which keep the vertical axis, with any projection; with the upside-down
one the buoyancy changes of sign. -/
theorem C98_ns3d_strat {n : Fin 3 → ℕ} (hn : ∀ d, 0 < n d) {S G : Finset (Fin 3 → ℤ)} (hS : NoAlias n S) (hSG : S ⊆ G) (g : Sym (Fin 3))
    {δ : Fin 3 → ℝ} (hg : g.Fits S δ) (h2 : g.π 2 = 2) {f : Option ℝ} (hf : f.getD 0 = 0 ∨ detH g = 1) (N : ℝ) (p : Projection) (noVz : Bool)
    (nu : Dissip.Nu) {c c' : Numerics (Fin 3) (Fin 4)} (hc : SymNumerics g c c') (hdt : ∀ k, c.dt k ≠ 0) {F : ℕ → Fin 4 → Fld (Fin 3)}
    (hF : ∀ m, Within S (F m)) {u0 : Fin 4 → Fld (Fin 3)} (h0 : Within S u0) (k : ℕ) :
    runStrat3d n S G δ f N p noVz nu c' (fun m => imageVelB g (F m)) (imageVelB g u0) k
      = imageVelB g (runStrat3d n S G δ f N p noVz nu c F u0 k) :=
  run_image g hSG hg (swap4 g) (sign4 g) (P := fun u => components4 fun k => projectState p noVz (wave3 δ k) (modeState u k))
    (project4_image g hg h2 p noVz) rfl (tend3dStrat_image hn hS g hg h2 hf N p noVz)
    (fun u v k hk => by fin_cases v <;> simp [tend3dStrat, components4, ns3dStrat, hk]) hc hdt hF h0 k

/-- C98 (symmetric flows): when the initial velocity and the force of ns3d have a symmetry of the box (as the Taylor-Green flow), so has
the velocity after any number of steps: its component `d` at `x` is `±` its component `π d` at the point sent to `x`. -/
theorem C98_kept {n : Fin 3 → ℕ} (hn : ∀ d, 0 < n d) {S G : Finset (Fin 3 → ℤ)} (hS : NoAlias n S) (hSG : S ⊆ G) (g : Sym (Fin 3))
    {δ : Fin 3 → ℝ} (hg : g.Fits S δ) {f : Option ℝ} (hf : f.getD 0 = 0 ∨ (g.π 2 = 2 ∧ detH g = 1)) {p : Projection} {noVz : Bool}
    (hp : (p = .none ∧ noVz = false) ∨ g.π 2 = 2) (nu : Dissip.Nu) {c : Numerics (Fin 3) (Fin 3)} (hc : SymNumerics g c c)
    (hdt : ∀ k, c.dt k ≠ 0) {F : ℕ → Fin 3 → Fld (Fin 3)} (hF : ∀ m, Within S (F m)) {u0 : Fin 3 → Fld (Fin 3)} (h0 : Within S u0)
    (sF : ∀ m, imageVel g (F m) = F m) (s0 : imageVel g u0 = u0) (k : ℕ) (d : Fin 3) (x : Fin 3 → ℝ) :
    value S δ (runNs3d n S G δ f p noVz nu c F u0 k d) x
      = g.σ d * value S δ (runNs3d n S G δ f p noVz nu c F u0 k (g.π d)) (g.point x) := by
  have h := C98_ns3d hn hS hSG g hg hf hp nu hc hdt hF h0 k
  rw [s0, show (fun m => imageVel g (F m)) = F from funext sF] at h
  rw [← C98_image g hg g.π g.σ]
  conv_lhs => rw [h]
  rfl

/-- C98 (symmetric flows in two dimensions). -/
theorem C98_kept_ns2d {n : Fin 2 → ℕ} (hn : ∀ d, 0 < n d) {S G : Finset (Fin 2 → ℤ)} (hS : NoAlias n S) (hSG : S ⊆ G) (g : Sym (Fin 2))
    {δ : Fin 2 → ℝ} (hg : g.Fits S δ) {beta : ℝ} (hb : beta = 0 ∨ (g.π 1 = 1 ∧ g.σ 0 = 1)) (nu : Dissip.Nu) {c : Numerics (Fin 2) Unit}
    (hc : SymNumerics g c c) (hdt : ∀ k, c.dt k ≠ 0) {F : ℕ → Unit → Fld (Fin 2)} (hF : ∀ m, Within S (F m)) {rot0 : Unit → Fld (Fin 2)}
    (h0 : Within S rot0) (sF : ∀ m, imageRot g (F m) = F m) (s0 : imageRot g rot0 = rot0) (k : ℕ) (x : Fin 2 → ℝ) :
    value S δ (runNs2d n S G δ beta nu c F rot0 k ()) x = det2 g * value S δ (runNs2d n S G δ beta nu c F rot0 k ()) (g.point x) := by
  have h := C98_ns2d hn hS hSG g hg hb nu hc hdt hF h0 k
  rw [s0, show (fun m => imageRot g (F m)) = F from funext sF] at h
  have e := C98_image g hg id (fun _ => det2 g) (runNs2d n S G δ beta nu c F rot0 k) () x
  simp only [id] at e
  rw [← e]
  conv_lhs => rw [h]
  rfl

end

end Verif.Symmetry
