import Verif.Tendencies.Model
import Mathlib.Tactic.NormNum

/-! # C53: tendencies computed in place -/

namespace Verif.Tendencies

variable {V F : Type*} [DecidableEq V]

/-- Specification: the result does not depend on whether the tendencies are written over the
state they are computed from (nor on the previous content of the output array). -/
def InPlaceSafe (prog : Mem V F → Mem V F) : Prop :=
  ∀ s g g' : V → F, (prog (Mem.start true s g)).T = (prog (Mem.start false s g')).T

/-- **C53** ns2d -/
theorem C53_ns2d (frot : F → F) (post : (Unit → F) → Unit → F) :
    InPlaceSafe (ns2d frot post) := by
  intro s g g'
  simp only [ns2d, Mem.modifyAll, Mem.write, Mem.start, if_true, Bool.false_eq_true, if_false]
  congr 1

/-- **C53** ns2d.strat, ns2d.bouss -/
theorem C53_ns2d_strat [Add F] (frot : F → F) (fb : F → F → F) (px : F → F)
    (post : (V2 → F) → V2 → F) : InPlaceSafe (ns2dStrat frot fb px post) := by
  intro s g g'
  simp only [ns2dStrat, Mem.modifyAll, Mem.write, Mem.start, if_true, Bool.false_eq_true,
    if_false]
  congr 1; funext v; cases v <;> simp

/-- **C53** ns3d without turbulence model; the variable `b` does not exist in this solver:
it is excluded by the hypothesis that the operations do not depend on it. -/
theorem C53_ns3d [Add F] (rhs : F → F → F → F × F × F) (forcing : V3 → F)
    (proj : (V3 → F) → V3 → F)
    (hproj : ∀ t t' : V3 → F, t .vx = t' .vx → t .vy = t' .vy → t .vz = t' .vz →
      proj t = proj t') :
    InPlaceSafe (ns3d rhs forcing none proj) := by
  intro s g g'
  simp only [ns3d, Mem.modifyAll, Mem.write, Mem.start, if_true, Bool.false_eq_true, if_false]
  apply hproj <;> simp

/-- **C53** ns3d.bouss -/
theorem C53_ns3d_bouss [Ring F] (rhs : F → F → F → F × F × F) (divvb : F → F → F → F → F)
    (post : (V3 → F) → V3 → F) : InPlaceSafe (ns3dBouss rhs divvb post) := by
  intro s g g'
  simp only [ns3dBouss, Mem.modifyAll, Mem.write, Mem.start, if_true, Bool.false_eq_true,
    if_false]
  congr 1; funext v; cases v <;> simp

/-- **C53** sw1l, sw1l.modified, sw1l.exactlin -/
theorem C53_sw1l (fx fy feta : F → F → F → F) (post : (Vsw → F) → Vsw → F) :
    InPlaceSafe (sw1l fx fy feta post) := by
  intro s g g'
  simp only [sw1l, Mem.modifyAll, Mem.write, Mem.start, if_true, Bool.false_eq_true, if_false]
  congr 1; funext v; cases v <;> simp

/-- **C53** the one-dimensional solvers -/
theorem C53_one_variable [Add F] (nl cons : F → F) (post : (Unit → F) → Unit → F) :
    InPlaceSafe (oneVar nl cons post) := by
  intro s g g'
  simp only [oneVar, Mem.modifyAll, Mem.write, Mem.start, if_true, Bool.false_eq_true, if_false]
  congr 1

/-- **C53** (finding) ns3d.strat: computed in place, the tendency of the buoyancy is
`-div(v b) - N² (f_z + b)` instead of `-div(v b) - N² v_z`, for every state. -/
theorem C53_ns3d_strat_inplace_value [Ring F] (rhs : F → F → F → F × F × F)
    (divvb : F → F → F → F → F) (n2 : F) (s g : V3 → F) :
    (ns3dStrat rhs divvb n2 id (Mem.start true s g)).T .b
      = -divvb (s .vx) (s .vy) (s .vz) (s .b)
        - n2 * ((rhs (s .vx) (s .vy) (s .vz)).2.2 + s .b) ∧
    (ns3dStrat rhs divvb n2 id (Mem.start false s g)).T .b
      = -divvb (s .vx) (s .vy) (s .vz) (s .b) - n2 * s .vz := by
  simp [ns3dStrat, Mem.modifyAll, Mem.write, Mem.start]

/-- **C53** (finding) ns3d.strat is not safe: already without nonlinear terms (an internal
wave with `b = 0`, `v_z = 1`, `N = 1`). -/
theorem C53_ns3d_strat_violated :
    ¬ ∀ (rhs : ℚ → ℚ → ℚ → ℚ × ℚ × ℚ) (divvb : ℚ → ℚ → ℚ → ℚ → ℚ) (n2 : ℚ),
      InPlaceSafe (ns3dStrat rhs divvb n2 id) := by
  intro h
  let s : V3 → ℚ := fun v => match v with | .vz => 1 | _ => 0
  have h1 := h (fun _ _ _ => (0, 0, 0)) (fun _ _ _ _ => 0) 1 s s s
  have := congrFun h1 .b
  rw [(C53_ns3d_strat_inplace_value _ _ _ s s).1,
    (C53_ns3d_strat_inplace_value _ _ _ s s).2] at this
  simp [s] at this

/-- **C53** (partial: what holds of ns3d.strat) the velocity tendencies are right, and so is
the buoyancy tendency for `N = 0`. -/
theorem C53_ns3d_strat_partial [Ring F] (rhs : F → F → F → F × F × F)
    (divvb : F → F → F → F → F) (n2 : F) (s g g' : V3 → F) :
    (∀ v, v ≠ .b → (ns3dStrat rhs divvb n2 id (Mem.start true s g)).T v
      = (ns3dStrat rhs divvb n2 id (Mem.start false s g')).T v) ∧
    InPlaceSafe (ns3dStrat rhs divvb (0 : F) id) := by
  constructor
  · intro v hv
    cases v <;> simp_all [ns3dStrat, Mem.modifyAll, Mem.write, Mem.start]
  · intro s g g'
    funext v
    cases v <;> simp [ns3dStrat, Mem.modifyAll, Mem.write, Mem.start]

/-- **C53** (finding) ns3d with a turbulence model: in place, the model is evaluated on the
tendencies instead of the velocity. -/
theorem C53_ns3d_turb_model_violated :
    ¬ ∀ (rhs : ℚ → ℚ → ℚ → ℚ × ℚ × ℚ) (turb : ℚ → ℚ → ℚ → V3 → ℚ),
      InPlaceSafe (ns3d rhs (fun _ => 0) (some turb) id) := by
  intro h
  have h1 := h (fun _ _ _ => (0, 0, 0)) (fun x _ _ _ => -x) (fun _ => 1) (fun _ => 0)
    (fun _ => 0)
  have := congrFun h1 .vx
  simp [ns3d, Mem.modifyAll, Mem.write, Mem.start] at this

/-- **C53** (finding) plate2d: in place, the vertical displacement is replaced by the vertical
velocity before it is used. -/
theorem C53_plate2d_inplace_value [Ring F] (monge : F → F → F) (invlap2 lap2 : F → F)
    (s g : Vp → F) :
    (plate2d monge invlap2 lap2 id (Mem.start true s g)).T .w
      = -lap2 (s .w) + monge (s .w) (-invlap2 (monge (s .w) (s .w))) ∧
    (plate2d monge invlap2 lap2 id (Mem.start false s g)).T .w
      = -lap2 (s .z) + monge (s .z) (-invlap2 (monge (s .z) (s .z))) := by
  simp [plate2d, Mem.modifyAll, Mem.write, Mem.start]

/-- **C53** (finding) plate2d: evaluating the tendencies in the array of the state does not give the
tendencies of this state. -/
theorem C53_plate2d_violated :
    ¬ ∀ (monge : ℚ → ℚ → ℚ) (invlap2 lap2 : ℚ → ℚ),
      InPlaceSafe (plate2d monge invlap2 lap2 id) := by
  intro h
  let s : Vp → ℚ := fun v => match v with | .z => 1 | .w => 0
  have h1 := h (fun _ _ => 0) (fun _ => 0) id s s s
  have := congrFun h1 .w
  rw [(C53_plate2d_inplace_value _ _ _ s s).1, (C53_plate2d_inplace_value _ _ _ s s).2] at this
  simp [s] at this

/-- non-vacuity: a program that is safe and does not return a constant -/
example : (oneVar (fun x : ℚ => x * x) (fun x => x) id
    (Mem.start true (fun _ => 3) (fun _ => 0))).T () = 12 := by
  simp [oneVar, Mem.modifyAll, Mem.write, Mem.start]; norm_num

end Verif.Tendencies
