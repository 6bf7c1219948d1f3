import Mathlib.Algebra.Ring.Basic
import Mathlib.Algebra.Field.Rat
import Mathlib.Logic.Function.Basic

/-!
# Model of the order of the reads and writes in `tendencies_nonlin`

`sim.tendencies_nonlin(state_spect, old=array)` writes the tendencies in `array`.  The time
schemes `RK2_phaseshift_random` and `RK2_phaseshift_exact` call it with
`old = state_spect` (pseudo_spect.py:683-685, 699-701, 760-762, 773-775): both arrays are then
the same memory, and `get_var` returns *views* of it.

Here `S v` is the memory of the variable `v` of the given state and `T v` the memory of the
variable `v` of the tendencies; if `aliased`, a write in one is a write in the other.  The
operators (Fourier transforms, products in physical space, gradients, truncation, forcing) are
arbitrary functions on an arbitrary ring `F` of fields: only the order of the reads and writes
matters.  Reading a local array that was computed earlier is a Lean `let`; reading a view
(`vz_fft` after it has been overwritten) is a read of the memory at that moment.
-/

namespace Verif.Tendencies

structure Mem (V F : Type*) where
  S : V → F
  T : V → F
  aliased : Bool

variable {V F : Type*} [DecidableEq V]

/-- Call with (`aliased = true`) or without `old = state_spect`; `g` is the previous content
of a separate `old` array. -/
def Mem.start (aliased : Bool) (s g : V → F) : Mem V F :=
  { S := s, T := if aliased then s else g, aliased := aliased }

/-- `tendencies_fft.set_var(v, x)` or `view[:] = x` or `fft_as_arg(.., view)`. -/
def Mem.write (m : Mem V F) (v : V) (x : F) : Mem V F :=
  { m with
    T := Function.update m.T v x
    S := if m.aliased then Function.update m.S v x else m.S }

/-- An in-place operation on the whole array (`dealiasing`, `+= forcing`, projection). -/
def Mem.modifyAll (m : Mem V F) (f : (V → F) → (V → F)) : Mem V F :=
  { m with
    T := f m.T
    S := if m.aliased then f m.T else m.S }

/-- ns2d/solver.py:148-194 (variables: the vorticity).  `frot` stands for
`compute_Frot(ux, uy, px_rot, py_rot, beta)` from `rot_fft`, `post` for the truncation, then
the forcing. -/
def ns2d (frot : F → F) (post : (Unit → F) → (Unit → F)) (m : Mem Unit F) : Mem Unit F :=
  let Frot := frot (m.S ())
  let m := m.write () Frot
  m.modifyAll post

inductive V2 | rot | b deriving DecidableEq

/-- ns2d/strat/solver.py:108-181 (`lin = -N² uy` is part of `fb`) and
ns2d/bouss/solver.py:105-165: all gradients are computed in separate arrays before the two
writes; then `f_rot_fft += px_b_fft` with the separate array `px_b_fft`. -/
def ns2dStrat [Add F] (frot : F → F) (fb : F → F → F) (px : F → F)
    (post : (V2 → F) → (V2 → F)) (m : Mem V2 F) : Mem V2 F :=
  let px_b := px (m.S .b)
  let f_rot := frot (m.S .rot)
  let f_b := fb (m.S .rot) (m.S .b)
  let m := m.write .b f_b
  let m := m.write .rot f_rot
  let m := m.write .rot (m.T .rot + px_b)
  m.modifyAll post

inductive V3 | vx | vy | vz | b deriving DecidableEq

/-- ns3d/solver.py:180-253.  `rhs` gives the three components of `u × ω`, `turb` is the
optional turbulence model, which is given the views `vx_fft, vy_fft, vz_fft`
(solver.py:246-249) after the writes. -/
def ns3d [Add F] (rhs : F → F → F → F × F × F) (forcing : V3 → F)
    (turb : Option (F → F → F → V3 → F)) (proj : (V3 → F) → (V3 → F)) (m : Mem V3 F) :
    Mem V3 F :=
  let f := rhs (m.S .vx) (m.S .vy) (m.S .vz)
  let m := m.write .vx f.1
  let m := m.write .vy f.2.1
  let m := m.write .vz f.2.2
  let m := m.modifyAll (fun t v => t v + forcing v)
  let m := match turb with
    | none => m
    | some g =>
      let e := g (m.S .vx) (m.S .vy) (m.S .vz)
      m.modifyAll (fun t v => t v + e v)
  m.modifyAll proj

/-- ns3d/bouss/solver.py:99-175: `fz_fft += b_fft` and `ifft_as_arg(b_fft, b)` read the view
`b_fft`, which has not been written yet; `vx, vy, vz` are arrays in physical space computed
before the writes. -/
def ns3dBouss [Ring F] (rhs : F → F → F → F × F × F) (divvb : F → F → F → F → F)
    (post : (V3 → F) → (V3 → F)) (m : Mem V3 F) : Mem V3 F :=
  let vx := m.S .vx
  let vy := m.S .vy
  let vz := m.S .vz
  let f := rhs vx vy vz
  let m := m.write .vx f.1
  let m := m.write .vy f.2.1
  let m := m.write .vz f.2.2
  let m := m.write .vz (m.T .vz + m.S .b)
  let fb := -divvb vx vy vz (m.S .b)
  let m := m.write .b fb
  m.modifyAll post

/-- ns3d/strat/solver.py:138-216: as `ns3dBouss`, but `compute_fb_fft(div_vb_fft, N, vz_fft)`
(line 205) reads the view `vz_fft` *after* the write of `fz_fft`. -/
def ns3dStrat [Ring F] (rhs : F → F → F → F × F × F) (divvb : F → F → F → F → F) (n2 : F)
    (post : (V3 → F) → (V3 → F)) (m : Mem V3 F) : Mem V3 F :=
  let vx := m.S .vx
  let vy := m.S .vy
  let vz := m.S .vz
  let f := rhs vx vy vz
  let m := m.write .vx f.1
  let m := m.write .vy f.2.1
  let m := m.write .vz f.2.2
  let m := m.write .vz (m.T .vz + m.S .b)
  let div := divvb vx vy vz (m.S .b)
  let fb := -div - n2 * m.S .vz
  let m := m.write .b fb
  m.modifyAll post

inductive Vsw | ux | uy | eta deriving DecidableEq

/-- sw1l/solver.py:201-246, sw1l/modified/solver.py:45-116, sw1l/exactlin/solver.py:52-108
(with `q, ap, am` for the names): everything is computed from arrays that are not views of
the state before the three writes. -/
def sw1l (fx fy feta : F → F → F → F) (post : (Vsw → F) → (Vsw → F)) (m : Mem Vsw F) :
    Mem Vsw F :=
  let x := fx (m.S .ux) (m.S .uy) (m.S .eta)
  let y := fy (m.S .ux) (m.S .uy) (m.S .eta)
  let m0 := m
  let m := m.write .ux x
  let m := m.write .uy y
  -- `oper.fft2((eta + 1) * ux)` uses the arrays in physical space
  let m := m.write .eta (feta (m0.S .ux) (m0.S .uy) (m0.S .eta))
  m.modifyAll post

inductive Vp | w | z deriving DecidableEq

/-- plate2d/solver.py:167-203: `tendencies_fft.set_var("z_fft", w_fft)` (line 184) comes
before the reads of the view `z_fft`. -/
def plate2d [Ring F] (monge : F → F → F) (invlap2 lap2 : F → F)
    (post : (Vp → F) → (Vp → F)) (m : Mem Vp F) : Mem Vp F :=
  let m := m.write .z (m.S .w)
  let mamp_zz := monge (m.S .z) (m.S .z)
  let chi := -invlap2 mamp_zz
  let Nw := monge (m.S .z) chi
  let m := m.write .w (-lap2 (m.S .z) + Nw)
  m.modifyAll post

/-- burgers1d/solver.py:69-94, burgers1d/skew_sym/solver.py:30-63, nl1d/solver.py:55-74: one
variable; the nonlinear term and (skew_sym) the conservative part are computed in separate
arrays before the write. -/
def oneVar [Add F] (nl cons : F → F) (post : (Unit → F) → (Unit → F)) (m : Mem Unit F) :
    Mem Unit F :=
  let f := nl (m.S ())
  let c := cons (m.S ())
  let m := m.write () f
  let m := m.write () (m.T () + c)
  m.modifyAll post

end Verif.Tendencies
