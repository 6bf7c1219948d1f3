import Mathlib.Analysis.SpecialFunctions.Trigonometric.Basic
import Mathlib.Analysis.Real.Sqrt
import Mathlib.Analysis.Complex.Basic
import Mathlib.Data.Fintype.BigOperators
import Mathlib.Algebra.BigOperators.Group.Finset.Basic

/-!
# Forcing: normalisation (C31), proportional forcing (C32), caching (C33), time-correlated
random forcing (C34)

Arrays over the modes of the coarse operators are functions on a finite type of modes, or on pairs
of indices where the code uses the positions. `oper_coarse.sum_wavenumbers` (fluidfft) is a weighted
sum: the weight of a stored mode is the number of modes it stands for (1 or 2 with real transforms).
Real arithmetic instead of floating point.
-/

namespace Verif.Forcing

noncomputable section

/-- `oper_coarse.sum_wavenumbers` (fluidfft): the sum over all wavenumbers of the values of an array
in which the modes `kx < 0` are not stored. The weights are parameters of the model. -/
def sumK {ι : Type*} [Fintype ι] (w : ι → ℝ) (x : ι → ℝ) : ℝ := ∑ i, w i * x i

/-! ### 2nd degree equation -/

/-- `a = deltat / 2 * oper_c.sum_wavenumbers(abs(fvc_fft) ** 2)`
(fluidsim/base/forcing/specific.py 672). -/
def coefA {ι : Type*} [Fintype ι] (w : ι → ℝ) (dt : ℝ) (f : ι → ℂ) : ℝ :=
  dt / 2 * sumK w (fun i => ‖f i‖ ^ 2)

/-- `b = oper_c.sum_wavenumbers((vc_fft.conj() * fvc_fft).real)` (specific.py 673). -/
def coefB {ι : Type*} [Fintype ι] (w : ι → ℝ) (v f : ι → ℂ) : ℝ :=
  sumK w (fun i => ((starRingEnd ℂ) (v i) * f i).re)

/-- What `alpha1, alpha2 = np.roots([a, b, c])` may give (specific.py 695-698): the two roots with
their multiplicity, in an order which numpy does not document; fewer than two values, hence a
`ValueError` (modelled by `none`), exactly when the leading coefficient is zero. Pairs of complex
roots (negative discriminant) are outside this relation. -/
def NpRoots (a b c : ℝ) : Option (ℝ × ℝ) → Prop
  | none => a = 0
  | some r => a ≠ 0 ∧ ∀ x : ℝ, a * x ^ 2 + b * x + c = a * (x - r.1) * (x - r.2)

/-- `coef_normalization_from_abc` (specific.py 679-725), applied to what `np.roots` returned. -/
def coefNormalization (which : String) : Option (ℝ × ℝ) → Except String ℝ
  | none => .ok 0
  | some (r1, r2) =>
    if which = "minabs" then
      if |r2| < |r1| then .ok r2 else .ok r1
    else if which = "first" then .ok r1
    else if which = "second" then .ok r2
    else if which = "positive" then
      if r2 > 0 then .ok r2 else .ok r1
    else .error "ValueError"

/-- `fvc_fft *= coef` (specific.py 677). -/
def scale {ι : Type*} (c : ℝ) (f : ι → ℂ) : ι → ℂ := fun i => f i * (c : ℂ)

/-- `normalize_forcingc_2nd_degree_eq` (specific.py 587-677) once `np.roots` has returned `roots`:
the normalised forcing. -/
def normalize2nd {ι : Type} (which : String) (roots : Option (ℝ × ℝ)) (f : ι → ℂ) :
    Except String (ι → ℂ) := do
  let coef ← coefNormalization which roots
  pure (scale coef f)

/-- The loop over the forced keys of `NormalizedForcing.compute` (specific.py 480-509):
`init_statespect_from(**{key: fa})` gives a state with `fa` for the key and zeros elsewhere, it is
added to the accumulated state, and the accumulated state is copied to the coarse state. The argument
is the list of the keys with their normalised forcings. -/
def computeKeys {κ ι : Type*} [DecidableEq κ] : List (κ × (ι → ℂ)) → κ → ι → ℂ
  | [], _, _ => 0
  | (key, fa) :: rest, k, i =>
    (if k = key then fa i else 0) + computeKeys rest k i

/-- `normalize_forcingc` (specific.py 511-521): the choice of the normalisation. For an unknown type
the `ValueError` is built and not raised: the forcing is not modified. The two normalisations are
arguments. -/
def normalizeForcing {ι : Type*} (type : String) (second part : (ι → ℂ) → Except String (ι → ℂ))
    (f : ι → ℂ) : Except String (ι → ℂ) :=
  if type = "2nd_degree_eq" then second f
  else if type = "particular_k" then part f
  else .ok f

/-! ### Rates of the energies of ns2d and ns2d.strat -/

/-- `K2_not0` (`K2` with the value of the zero mode replaced; fluidfft operators2d). -/
def k2not0 (kx ky : ℝ) : ℝ := if kx ^ 2 + ky ^ 2 = 0 then 1 / 10 ^ 14 else kx ^ 2 + ky ^ 2

/-- `oper.vecfft_from_rotfft` (fluidfft operators2d, used in fluidsim/solvers/ns2d/forcing.py
44-45). -/
def vecFromRot (kx ky : ℝ) (rot : ℂ) : ℂ × ℂ :=
  (Complex.I * ky / k2not0 kx ky * rot, -Complex.I * kx / k2not0 kx ky * rot)

/-- `oper.rotfft_from_vecfft` (fluidfft operators2d). -/
def rotFromVec (kx ky : ℝ) (ux uy : ℂ) : ℂ := Complex.I * (kx * uy - ky * ux)

/-- `compute_coef_ab_normalize` of ns2d (fluidsim/solvers/ns2d/forcing.py 32-54). -/
def coefABns2d {ι : Type*} [Fintype ι] (w kx ky : ι → ℝ) (rateOf key : String) (f v : ι → ℂ)
    (dt : ℝ) : Except String (ℝ × ℝ) :=
  if rateOf ≠ "energy" ∧ rateOf ≠ "energyK" then .error "ValueError"
  else if key = "rot_fft" then
    let u := fun i => vecFromRot (kx i) (ky i) (v i)
    let g := fun i => vecFromRot (kx i) (ky i) (f i)
    .ok (dt / 2 * sumK w (fun i => ‖(g i).1‖ ^ 2 + ‖(g i).2‖ ^ 2),
      sumK w (fun i => ((starRingEnd ℂ) (u i).1 * (g i).1).re +
        ((starRingEnd ℂ) (u i).2 * (g i).2).re))
  else .error "ValueError"

/-- `compute_rotbfft_from_apfft` (fluidsim/solvers/ns2d/strat/state.py 208-231) at one mode. -/
def rotbFromAp (N kx ky : ℝ) (ap : ℂ) : ℂ × ℂ :=
  let uy : ℂ := 1 / (2 * N ^ 2) * ap
  let division : ℝ := if kx ≠ 0 then ky / kx else 0
  let ux : ℂ := -1 * division * uy
  let omega : ℝ := N * kx / √(k2not0 kx ky)
  (rotFromVec kx ky ux uy, if kx ≠ 0 then 1 / (2 * Complex.I * omega) * ap else 0)

/-- `compute_rotbfft_from_amfft` (strat/state.py 185-206) at one mode. -/
def rotbFromAm (N kx ky : ℝ) (am : ℂ) : ℂ × ℂ :=
  let uy : ℂ := 1 / (2 * N ^ 2) * am
  let division : ℝ := if kx ≠ 0 then ky / kx else 0
  let ux : ℂ := -1 * division * uy
  let omega : ℝ := N * kx / √(k2not0 kx ky)
  (rotFromVec kx ky ux uy, if kx ≠ 0 then 1 / (2 * Complex.I * omega) * (-am) else 0)

/-- The linear mode `ap_fft` of a state (fluidsim/solvers/ns2d/strat/state.py 86-111):
`N**2 * uy + 1j * omega_k * b`. -/
def apFrom (N kx ky : ℝ) (rot b : ℂ) : ℂ :=
  N ^ 2 * (vecFromRot kx ky rot).2 + Complex.I * (N * kx / √(k2not0 kx ky) : ℝ) * b

/-- The linear mode `am_fft` of a state (strat/state.py 86-111). -/
def amFrom (N kx ky : ℝ) (rot b : ℂ) : ℂ :=
  N ^ 2 * (vecFromRot kx ky rot).2 - Complex.I * (N * kx / √(k2not0 kx ky) : ℝ) * b

/-- `compute_coef_ab_normalize` of ns2d.strat (fluidsim/solvers/ns2d/strat/forcing.py 19-66). -/
def coefABstrat {ι : Type*} [Fintype ι] (w kx ky : ι → ℝ) (N : ℝ) (rateOf key : String)
    (f v : ι → ℂ) (dt : ℝ) : Except String (ℝ × ℝ) :=
  if rateOf ≠ "energy" ∧ rateOf ≠ "energyK" then .error "ValueError"
  else if key = "rot_fft" then
    let u := fun i => vecFromRot (kx i) (ky i) (v i)
    let g := fun i => vecFromRot (kx i) (ky i) (f i)
    .ok (dt / 2 * sumK w (fun i => ‖(g i).1‖ ^ 2 + ‖(g i).2‖ ^ 2),
      sumK w (fun i => ((starRingEnd ℂ) (u i).1 * (g i).1).re +
        ((starRingEnd ℂ) (u i).2 * (g i).2).re))
  else if key = "ap_fft" then
    let s := fun i => rotbFromAp N (kx i) (ky i) (v i)
    let h := fun i => rotbFromAp N (kx i) (ky i) (f i)
    let u := fun i => vecFromRot (kx i) (ky i) (s i).1
    let g := fun i => vecFromRot (kx i) (ky i) (h i).1
    let a := dt / 2 * sumK w (fun i => ‖(g i).1‖ ^ 2 + ‖(g i).2‖ ^ 2)
    let b := sumK w (fun i => ((starRingEnd ℂ) (u i).1 * (g i).1).re +
        ((starRingEnd ℂ) (u i).2 * (g i).2).re)
    if rateOf = "energyK" then .ok (a, b)
    else
      .ok (a + dt / 2 * sumK w (fun i => ‖(h i).2‖ ^ 2) / N ^ 2,
        b + sumK w (fun i => ((starRingEnd ℂ) (s i).2 * (h i).2).re) / N ^ 2)
  else .error "ValueError"

/-! ### Normalisation with one particular mode -/

/-- `project_fft_on_realX_seq` (fluidsim/operators/operators2d.py 222-259): in the columns
`ikx = 0` and `ikx = nkx - 1`, the rows `0` and `nky // 2` become real and the rows `p` and
`nky - p` (for `1 ≤ p < nky // 2`) become the two halves of a Hermitian pair. The pairs are disjoint,
so the loop is modelled by its effect on each entry. -/
def projRealX (nky nkx : ℕ) (f : ℕ → ℕ → ℂ) (iy ix : ℕ) : ℂ :=
  if ix = 0 ∨ ix = nkx - 1 then
    if iy = 0 ∨ iy = nky / 2 then ((f iy ix).re : ℂ)
    else if 1 ≤ iy ∧ iy < nky / 2 then
      (f iy ix + (starRingEnd ℂ) (f (nky - iy) ix)) / 2
    else if 1 ≤ nky - iy ∧ nky - iy < nky / 2 then
      (starRingEnd ℂ) ((f (nky - iy) ix + (starRingEnd ℂ) (f iy ix)) / 2)
    else f iy ix
  else f iy ix

/-- `oper_c.sum_wavenumbers` on positions, with the weight of the column. -/
def sumXY (w : ℕ → ℝ) (nky nkx : ℕ) (x : ℕ → ℕ → ℝ) : ℝ :=
  ∑ ix ∈ Finset.range nkx, ∑ iy ∈ Finset.range nky, w ix * x iy ix

/-- Assignment of one entry of an array. -/
def setEntry (f : ℕ → ℕ → ℂ) (iy ix : ℕ) (c : ℂ) : ℕ → ℕ → ℂ :=
  fun y x => if y = iy ∧ x = ix then c else f y x

/-- `normalize_forcingc_part_k` (specific.py 523-585) once the particular mode `(iy, ix)` has been
drawn. -/
def normalizePartK (w : ℕ → ℝ) (nky nkx : ℕ) (dt rate : ℝ) (iy ix : ℕ) (v f : ℕ → ℕ → ℂ) :
    ℕ → ℕ → ℂ :=
  let f1 := projRealX nky nkx f
  let P2 := sumXY w nky nkx (fun y x => ((starRingEnd ℂ) (f1 y x) * v y x).re)
  let part0 :=
    ((starRingEnd ℂ) (f1 iy ix) * v iy ix + f1 iy ix * (starRingEnd ℂ) (v iy ix)).re
  let part := if ix = 0 then part0 / 2 else part0
  let other := P2 - part
  let c0 : ℝ := -other / (v iy ix).re
  let c := if ix ≠ 0 then c0 / 2 else c0
  let f2 := projRealX nky nkx (setEntry f1 iy ix (c : ℂ))
  let PZ := sumXY w nky nkx (fun y x => ‖f2 y x‖ ^ 2) * dt / 2
  fun y x => f2 y x * (√(rate / PZ) : ℝ)

/-! ### Proportional forcing -/

/-- `Proportional.forcingc_raw_each_time` (specific.py 407-425). `noF` is `COND_NO_F`. -/
def proportional {ι : Type*} [Fintype ι] (w : ι → ℝ) (noF : ι → Bool) (dt rate : ℝ) (v : ι → ℂ) :
    ι → ℂ :=
  let fv := fun i => if noF i then 0 else v i
  let Z := sumK w (fun i => ‖fv i‖ ^ 2 / 2)
  let alpha : ℝ := (√(1 + dt * rate / Z) - 1) / dt
  fun i => (alpha : ℂ) * fv i

/-! ### One computation per time -/

/-- The forcing object: `_t_last_computed` (`-inf` initially: `none`) and the forcing. -/
structure Cache (F : Type) where
  last : Option ℝ
  forcing : F

/-- `ForcingBase.compute` (fluidsim/base/forcing/base.py 143-147). The forcing maker is an arbitrary
function of the time and of the current forcing (it modifies its arrays in place). The second
component says whether the maker was called. -/
def computeCached {F : Type} (maker : ℝ → F → F) (t : ℝ) (s : Cache F) : Cache F × Bool :=
  let call : Bool := match s.last with
    | none => true
    | some l => decide (l < t)
  if call then (⟨some t, maker t s.forcing⟩, true) else (s, false)

/-! ### Time-correlated random forcing -/

/-- numpy's global random generator: `np.random.seed`, `np.random.randint(0, 2**31)` and
`compute_forcingc_raw` (specific.py 754-762), which draws numbers from it. -/
structure Rng (G F : Type) where
  seed : ℕ → G
  randint : G → ℕ × G
  raw : G → F × G

/-- The text file `_forcing_state.txt` (specific.py 791-793, 845-853). -/
inductive StateFile
  | missing
  /-- created or truncated by `open(..., "w")`, nothing written yet -/
  | empty
  | written (tlc : ℝ) (seed0 seed1 : ℕ)

/-- The attributes of the forcing maker (specific.py 788-843), with the state of the global
generator and the file. -/
structure Tcr (G F : Type) where
  tlc : ℝ
  seed0 : ℕ
  seed1 : ℕ
  f0 : F
  f1 : F
  g : G
  file : StateFile

/-- `_save_state` (specific.py 845-853). -/
def saveState (hasToSave : Bool) (old : StateFile) (tlc : ℝ) (s0 s1 : ℕ) : StateFile :=
  if hasToSave then .written tlc s0 s1 else old

/-- `TimeCorrelatedRandomPseudoSpectral.__init__` (specific.py 788-813). The numbers of the file are
read back as they were written (`repr` of a float); an empty file gives an `IndexError`
(`lines[-1]`). -/
def tcrInit {G F : Type} (r : Rng G F) (hasToSave : Bool) (file : StateFile) (t : ℝ) (g : G) :
    Except String (Tcr G F) :=
  match file with
  | .empty => .error "IndexError"
  | .written tlc s0 s1 =>
    let (f0, _) := r.raw (r.seed s0)
    let (f1, g2) := r.raw (r.seed s1)
    .ok ⟨tlc, s0, s1, f0, f1, g2, file⟩
  | .missing =>
    let (s0, ga) := r.randint g
    let (s1, _) := r.randint ga
    let (f0, _) := r.raw (r.seed s0)
    let (f1, g2) := r.raw (r.seed s1)
    .ok ⟨t, s0, s1, f0, f1, g2, saveState hasToSave file t s0 s1⟩

/-- The first part of `forcingc_raw_each_time` (specific.py 832-840): the change of the fields. -/
def tcrChange {G F : Type} (r : Rng G F) (hasToSave : Bool) (period t : ℝ) (s : Tcr G F) :
    Tcr G F :=
  if t - s.tlc ≥ period then
    let (s1, _) := r.randint s.g
    let (f1, g2) := r.raw (r.seed s1)
    ⟨t, s.seed1, s1, s.f1, f1, g2, saveState hasToSave s.file t s.seed1 s1⟩
  else s

/-- `forcingc_from_f0f1` (specific.py 855-868). -/
def fromF0F1 {F : Type} [AddCommGroup F] [Module ℝ F] (period t tlc : ℝ) (f0 f1 : F) : F :=
  f1 - (0.5 * (Real.cos ((t - tlc) * (Real.pi / period)) + 1) : ℝ) • (f1 - f0)

/-- `forcingc_raw_each_time` (specific.py 826-843). -/
def tcrEach {G F : Type} [AddCommGroup F] [Module ℝ F] (r : Rng G F) (hasToSave : Bool)
    (period t : ℝ) (s : Tcr G F) : Tcr G F × F :=
  let s' := tcrChange r hasToSave period t s
  (s', fromF0F1 period t s'.tlc s'.f0 s'.f1)

/-- The successive calls at the times of a run: final attributes and the raw forcings returned. -/
def tcrRun {G F : Type} [AddCommGroup F] [Module ℝ F] (r : Rng G F) (hasToSave : Bool)
    (period : ℝ) : List ℝ → Tcr G F → Tcr G F × List F
  | [], s => (s, [])
  | t :: ts, s =>
    let (s', f) := tcrEach r hasToSave period t s
    let (s'', fs) := tcrRun r hasToSave period ts s'
    (s'', f :: fs)

end

end Verif.Forcing
