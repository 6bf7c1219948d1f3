/-!
# Model of the initialisation of the state from keyword arrays

Models `StateBase.init_statephys_from` and `StatePseudoSpectral.init_statespect_from`
(`fluidsim/base/state.py`) and the overriding methods of the solvers.

Arrays are elements of an arbitrary type `V`; the operators (`oper.dealiasing`,
`oper.rotfft_from_vecfft`, ...) are arbitrary functions, named by strings.  An exception is a
value, and what was written before the exception stays written.  `set_var` writes the values
in the storage array.  Simplification: `oper.dealiasing(arr)` also modifies the array of the
caller; only the stored value is modelled.
-/

namespace Verif.StateInit

/-- The storage arrays of a state object: `state_spect` and `state_phys` (state.py:63-68,
243-248). -/
structure Fields (V : Type) where
  spect : String → V
  phys : String → V

inductive Err
  | valueError (key : String)
  | typeError
  deriving DecidableEq, Repr

/-- Outcome of a call: the storage arrays afterwards, and the exception if one was raised. -/
abbrev Out (V : Type) := Fields V × Option Err

/-- Keyword arguments, in order (`**kwargs`: the keys are distinct). -/
abbrev Kw (V : Type) := List (String × V)

/-- The operators used by the methods. -/
structure Ops (V : Type) where
  zero : V
  un : String → V → V
  bin : String → V → V → V

variable {V : Type}

def set (f : String → V) (k : String) (v : V) : String → V :=
  fun k' => if k' = k then v else f k'

def Fields.setSpect (s : Fields V) (k : String) (v : V) : Fields V :=
  { s with spect := set s.spect k v }
def Fields.setPhys (s : Fields V) (k : String) (v : V) : Fields V :=
  { s with phys := set s.phys k v }

/-! ## base classes -/

/-- state.py:377-383: the loop over the keywords. -/
def spectLoop (keys : List String) (s : Fields V) : Kw V → Out V
  | [] => (s, none)
  | (k, v) :: kw =>
    if k ∉ keys then (s, some (.valueError k)) else spectLoop keys (s.setSpect k v) kw

/-- state.py:352-383 `StatePseudoSpectral.init_statespect_from` -/
def baseInitSpect (o : Ops V) (keys : List String) (s : Fields V) (kw : Kw V) : Out V :=
  spectLoop keys { s with spect := fun _ => o.zero } kw

/-- state.py:200-206 -/
def physLoop (keys : List String) (s : Fields V) : Kw V → Out V
  | [] => (s, none)
  | (k, v) :: kw =>
    if k ∉ keys then (s, some (.valueError k)) else physLoop keys (s.setPhys k v) kw

/-- state.py:176-206 `StateBase.init_statephys_from` -/
def baseInitPhys (o : Ops V) (keys : List String) (s : Fields V) (kw : Kw V) : Out V :=
  physLoop keys { s with phys := fun _ => o.zero } kw

/-- state.py:154-162 and 306-316 `__setitem__` -/
def setItem (keysSpect keysPhys : List String) (s : Fields V) (k : String) (v : V) : Out V :=
  if k ∈ keysSpect then (s.setSpect k v, none)
  else if k ∈ keysPhys then (s.setPhys k v, none)
  else (s, some (.valueError k))

/-! ## ns2d -/

/-- ns2d/state.py:31-38 -/
def ns2dKeysSpect : List String := ["rot_fft"]
def ns2dKeysPhys : List String := ["ux", "uy", "rot"]

/-- ns2d/state.py:90-101 `statephys_from_statespect` -/
def ns2dPhysFromSpect (o : Ops V) (s : Fields V) : Fields V :=
  let rot := s.spect "rot_fft"
  let ux := o.un "vecfft_from_rotfft.ux" rot
  let uy := o.un "vecfft_from_rotfft.uy" rot
  ((s.setPhys "rot" (o.un "ifft" rot)).setPhys "ux" (o.un "ifft" ux)).setPhys "uy" (o.un "ifft" uy)

/-- ns2d/state.py:111-115 -/
def ns2dFromRot (o : Ops V) (s : Fields V) (rot : V) : Fields V :=
  ns2dPhysFromSpect o (s.setSpect "rot_fft" (o.un "dealiasing" rot))

/-- ns2d/state.py:117-127 -/
def ns2dFromUx (o : Ops V) (s : Fields V) (ux : V) : Fields V :=
  ns2dFromRot o s (o.bin "rotfft_from_vecfft" ux o.zero)
def ns2dFromUy (o : Ops V) (s : Fields V) (uy : V) : Fields V :=
  ns2dFromRot o s (o.bin "rotfft_from_vecfft" o.zero uy)

/-- ns2d/state.py:129-145 -/
def ns2dInitSpect (o : Ops V) (s : Fields V) (kw : Kw V) : Out V :=
  match kw with
  | [(key, arr)] =>
    if key = "rot_fft" then (ns2dFromRot o s arr, none)
    else if key = "ux_fft" then (ns2dFromUx o s arr, none)
    else if key = "uy_fft" then (ns2dFromUy o s arr, none)
    else baseInitSpect o ns2dKeysSpect s [(key, arr)]
  | kw => baseInitSpect o ns2dKeysSpect s kw

/-- ns2d/state.py:147-157: only `rot` is written. -/
def ns2dPhysFromUx (o : Ops V) (s : Fields V) (ux : V) : Fields V :=
  s.setPhys "rot" (o.un "ifft" (o.bin "rotfft_from_vecfft" (o.un "fft" ux) o.zero))
def ns2dPhysFromUy (o : Ops V) (s : Fields V) (uy : V) : Fields V :=
  s.setPhys "rot" (o.un "ifft" (o.bin "rotfft_from_vecfft" o.zero (o.un "fft" uy)))

/-- ns2d/state.py:159-169 -/
def ns2dInitPhys (o : Ops V) (s : Fields V) (kw : Kw V) : Out V :=
  match kw with
  | [(key, arr)] =>
    if key = "ux" then (ns2dPhysFromUx o s arr, none)
    else if key = "uy" then (ns2dPhysFromUy o s arr, none)
    else baseInitPhys o ns2dKeysPhys s [(key, arr)]
  | kw => baseInitPhys o ns2dKeysPhys s kw

/-! ## ns2d.with_uxuy -/

/-- with_uxuy.py:46-58 -/
def uxuyPhysFromSpect (o : Ops V) (s : Fields V) : Fields V :=
  let ux := s.spect "ux_fft"
  let uy := s.spect "uy_fft"
  let rot := o.bin "rotfft_from_vecfft" ux uy
  ((s.setPhys "rot" (o.un "ifft" rot)).setPhys "ux" (o.un "ifft" ux)).setPhys "uy" (o.un "ifft" uy)

/-- with_uxuy.py:39-43 -/
def uxuyFromRot (o : Ops V) (s : Fields V) (rot : V) : Fields V :=
  uxuyPhysFromSpect o ((s.setSpect "ux_fft" (o.un "vecfft_from_rotfft.ux" rot)).setSpect
    "uy_fft" (o.un "vecfft_from_rotfft.uy" rot))

/-- with_uxuy.py:28 -/
def uxuyKeysSpect : List String := ["ux_fft", "uy_fft"]

/-- with_uxuy.py:31-37, with the inherited ns2d/state.py:117-145 (which call the overridden
`init_from_rotfft`). -/
def uxuyInitSpect (o : Ops V) (s : Fields V) (kw : Kw V) : Out V :=
  match kw with
  | [(key, arr)] =>
    if key = "rot_fft" then (uxuyFromRot o s arr, none)
    else if key = "ux_fft" then (uxuyFromRot o s (o.bin "rotfft_from_vecfft" arr o.zero), none)
    else if key = "uy_fft" then (uxuyFromRot o s (o.bin "rotfft_from_vecfft" o.zero arr), none)
    else baseInitSpect o uxuyKeysSpect s [(key, arr)]
  | [("ux_fft", a), ("uy_fft", b)] =>
    (uxuyPhysFromSpect o ((s.setSpect "ux_fft" a).setSpect "uy_fft" b), none)
  | [("uy_fft", b), ("ux_fft", a)] =>
    (uxuyPhysFromSpect o ((s.setSpect "ux_fft" a).setSpect "uy_fft" b), none)
  | kw => baseInitSpect o uxuyKeysSpect s kw

/-! ## ns2d.bouss and ns2d.strat -/

/-- ns2d/bouss/state.py:34-40, ns2d/strat/state.py -/
def rotbKeysSpect : List String := ["rot_fft", "b_fft"]

/-- ns2d/bouss/state.py:93-109, ns2d/strat/state.py:137-151 -/
def rotbPhysFromSpect (o : Ops V) (s : Fields V) : Fields V :=
  (ns2dPhysFromSpect o s).setPhys "b" (o.un "ifft" (s.spect "b_fft"))

/-- ns2d/bouss/state.py:124-132, ns2d/strat/state.py:165-173 `init_from_rotbfft` -/
def fromRotb (o : Ops V) (s : Fields V) (rot b : V) : Fields V :=
  rotbPhysFromSpect o
    ((s.setSpect "rot_fft" (o.un "dealiasing" rot)).setSpect "b_fft" (o.un "dealiasing" b))

def lookup (kw : Kw V) (k : String) : Option V := (kw.find? (fun p => p.1 = k)).map (·.2)

/-- ns2d/bouss/state.py:144-150: with two keywords other than `rot_fft`, `b_fft` nothing is
done. -/
def boussInitSpect (o : Ops V) (s : Fields V) (kw : Kw V) : Out V :=
  if kw.length = 2 then
    match lookup kw "rot_fft", lookup kw "b_fft" with
    | some rot, some b => (fromRotb o s rot b, none)
    | _, _ => (s, none)
  else baseInitSpect o rotbKeysSpect s kw

/-- ns2d/strat/state.py:253-259 (not exactly one keyword) -/
def stratInitMany (o : Ops V) (s : Fields V) (kw : Kw V) : Out V :=
  if kw.length = 2 then
    match lookup kw "rot_fft", lookup kw "b_fft" with
    | some rot, some b => (fromRotb o s rot b, none)
    | _, _ => baseInitSpect o rotbKeysSpect s kw
  else baseInitSpect o rotbKeysSpect s kw

/-- ns2d/strat/state.py:238-259.  `popitem` empties `kwargs`, which is then given to the base
method. -/
def stratInitSpect (o : Ops V) (s : Fields V) (kw : Kw V) : Out V :=
  match kw with
  | [(key, arr)] =>
    if key = "rot_fft" then (fromRotb o s arr o.zero, none)
    else if key = "ap_fft" then
      (fromRotb o s (o.un "rotfft_from_apfft" arr) (o.un "bfft_from_apfft" arr), none)
    else if key = "am_fft" then
      (fromRotb o s (o.un "rotfft_from_amfft" arr) (o.un "bfft_from_amfft" arr), none)
    else if key = "ux_fft" then (fromRotb o s (o.bin "rotfft_from_vecfft" arr o.zero) o.zero, none)
    else if key = "uy_fft" then (fromRotb o s (o.bin "rotfft_from_vecfft" o.zero arr) o.zero, none)
    else baseInitSpect o rotbKeysSpect s []
  | kw => stratInitMany o s kw

/-! ## ns3d (and ns3d.strat, ns3d.bouss: other list of keys) -/

/-- ns3d/state.py:147-169.  `keys` contains `vx_fft`, `vy_fft`, `vz_fft`. -/
def ns3dInitSpect (o : Ops V) (keys : List String) (s : Fields V) (kw : Kw V) : Out V :=
  match kw with
  | [(key, arr)] =>
    let s0 : Fields V := { s with spect := fun _ => o.zero }
    if key = "rotz_fft" then
      baseInitSpect o keys s0 [("vx_fft", o.un "vxvyfft_from_rotzfft.vx" arr),
        ("vy_fft", o.un "vxvyfft_from_rotzfft.vy" arr)]
    else if key = "divh_fft" then
      baseInitSpect o keys s0 [("vx_fft", o.un "vxvyfft_from_divhfft.vx" arr),
        ("vy_fft", o.un "vxvyfft_from_divhfft.vy" arr)]
    else if key = "vp_fft" then
      baseInitSpect o keys s0 [("vx_fft", o.un "vecfft_from_vpfft.vx" arr),
        ("vy_fft", o.un "vecfft_from_vpfft.vy" arr), ("vz_fft", o.un "vecfft_from_vpfft.vz" arr)]
    else if key = "vt_fft" then
      baseInitSpect o keys s0 [("vx_fft", o.un "vecfft_from_vtfft.vx" arr),
        ("vy_fft", o.un "vecfft_from_vtfft.vy" arr), ("vz_fft", o.un "vecfft_from_vtfft.vz" arr)]
    else baseInitSpect o keys s0 [(key, arr)]
  | kw => baseInitSpect o keys s kw

/-! ## sw1l -/

/-- sw1l/state.py (keys of the base solver sw1l) -/
def sw1lKeysSpect : List String := ["ux_fft", "uy_fft", "eta_fft"]

/-- `oper.dealiasing(state_spect)` -/
def dealiasAll (o : Ops V) (s : Fields V) : Fields V :=
  { s with spect := fun k => o.un "dealiasing" (s.spect k) }

/-- sw1l/state.py: `statephys_from_statespect` -/
def sw1lPhysFromSpect (o : Ops V) (s : Fields V) : Fields V :=
  let rot := o.bin "rotfft_from_vecfft" (s.spect "ux_fft") (s.spect "uy_fft")
  (((s.setPhys "ux" (o.un "ifft" (s.spect "ux_fft"))).setPhys
    "uy" (o.un "ifft" (s.spect "uy_fft"))).setPhys
    "eta" (o.un "ifft" (s.spect "eta_fft"))).setPhys "rot" (o.un "ifft" rot)

/-- sw1l/state.py:198-206 -/
def sw1lFromUxUyEta (o : Ops V) (s : Fields V) (ux uy eta : V) : Fields V :=
  sw1lPhysFromSpect o (dealiasAll o
    (((s.setSpect "ux_fft" ux).setSpect "uy_fft" uy).setSpect "eta_fft" eta))

/-- sw1l/state.py:240-269 (eta solves a Poisson equation: `_etafft_no_div`) -/
def sw1lFromUxUy (o : Ops V) (s : Fields V) (ux uy : V) : Fields V :=
  let ux' := o.un "dealiasing" (o.bin "projection_perp.ux" ux uy)
  let uy' := o.un "dealiasing" (o.bin "projection_perp.uy" ux uy)
  let rot := o.bin "rotfft_from_vecfft" ux' uy'
  let eta := o.bin "etafft_no_div" ux' uy'
  let s := ((s.setSpect "ux_fft" ux').setSpect "uy_fft" uy').setSpect "eta_fft" eta
  (((s.setPhys "rot" (o.un "ifft" rot)).setPhys "ux" (o.un "ifft" ux')).setPhys
    "uy" (o.un "ifft" uy')).setPhys "eta" (o.un "ifft" eta)

/-- sw1l/state.py:229-238 (line 237 adds the x component to the y component) -/
def sw1lFromQA (o : Ops V) (s : Fields V) (q a : V) : Fields V :=
  let rot := o.un "rotfft_from_qfft" q
  let uxq := o.un "vecfft_from_rotfft.ux" rot
  let uyq := o.un "vecfft_from_rotfft.uy" rot
  let etaq := o.un "etafft_from_qfft" q
  let uxa := o.un "uxuyetafft_from_afft.ux" a
  let etaa := o.un "uxuyetafft_from_afft.eta" a
  sw1lFromUxUyEta o s (o.bin "+" uxq uxa) (o.bin "+" uyq uxa) (o.bin "+" etaq etaa)

/-- `key_fft.replace("_", "")` -/
def removeUnderscores (k : String) : String := String.ofList (k.toList.filter (· ≠ '_'))

/-- sw1l/state.py:182-186 (not exactly one keyword).  Two keywords other than `q_fft`, `a_fft`:
nothing is done. -/
def sw1lInitMany (o : Ops V) (s : Fields V) (kw : Kw V) : Out V :=
  if kw.length = 2 then
    match lookup kw "q_fft", lookup kw "a_fft" with
    | some q, some a => (sw1lFromQA o s q a, none)
    | _, _ => (s, none)
  else baseInitSpect o sw1lKeysSpect s kw

/-- sw1l/state.py:168-186.  One keyword: the method `init_from_<key>` is looked up; those with
more than one argument raise `TypeError`. -/
def sw1lInitSpect (o : Ops V) (s : Fields V) (kw : Kw V) : Out V :=
  match kw with
  | [(key, arr)] =>
    let name := removeUnderscores key
    if name = "etafft" then (sw1lFromUxUyEta o s o.zero o.zero arr, none)
    else if name = "rotfft" then
      (sw1lFromUxUy o s (o.un "vecfft_from_rotfft.ux" arr) (o.un "vecfft_from_rotfft.uy" arr), none)
    else if name = "qfft" then
      let rot := o.un "rotfft_from_qfft" arr
      (sw1lFromUxUyEta o s (o.un "vecfft_from_rotfft.ux" rot) (o.un "vecfft_from_rotfft.uy" rot)
        (o.un "etafft_from_qfft" arr), none)
    else if name = "afft" then
      (sw1lFromUxUyEta o s (o.un "uxuyetafft_from_afft.ux" arr)
        (o.un "uxuyetafft_from_afft.uy" arr) (o.un "uxuyetafft_from_afft.eta" arr), none)
    else if name ∈ ["uxuyetafft", "rotuxuyfft", "qafft", "uxuyfft"] then (s, some .typeError)
    else baseInitSpect o sw1lKeysSpect s [(key, arr)]
  | kw => sw1lInitMany o s kw

/-! ## plate2d, spherical harmonics -/

/-- plate2d/state.py:25-29 -/
def plateKeysSpect : List String := ["w_fft", "z_fft"]

/-- plate2d/state.py:74-82 -/
def platePhysFromSpect (o : Ops V) (s : Fields V) : Fields V :=
  (s.setPhys "w" (o.un "ifft" (s.spect "w_fft"))).setPhys "z" (o.un "ifft" (s.spect "z_fft"))

/-- plate2d/state.py:90-97 (and 84-88): one keyword other than `w_fft`: nothing is done. -/
def plateInitSpect (o : Ops V) (s : Fields V) (kw : Kw V) : Out V :=
  match kw with
  | [(key, arr)] =>
    if key = "w_fft" then
      (platePhysFromSpect o ((s.setSpect "w_fft" (o.un "dealiasing" arr)).setSpect
        "z_fft" (o.un "dealiasing" o.zero)), none)
    else (s, none)
  | kw => baseInitSpect o plateKeysSpect s kw

/-- base/sphericalharmo/state.py:90-114 (`keys = ["rot_sh"]`) and
sphere/sw1l/state.py:138-149 (`keys = ["rot_sh", "div_sh", "eta_sh"]`, no dealiasing); the
physical arrays are not followed here. -/
def sphereInitSpect (o : Ops V) (keys : List String) (s : Fields V) (kw : Kw V) : Out V :=
  match kw with
  | [(key, arr)] => if key = "rot_sh" then (s.setSpect "rot_sh" arr, none) else (s, none)
  | kw => baseInitSpect o keys s kw

end Verif.StateInit
