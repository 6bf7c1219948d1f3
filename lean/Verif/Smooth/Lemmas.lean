import Verif.Smooth.Spec
import Verif.Reality.Lemmas
import Mathlib.Analysis.SpecialFunctions.ExpDeriv

/-! # Lemmas for C112 -/

set_option linter.unusedSectionVars false

namespace Verif.Smooth

open Verif.Fourier Verif.Energy Verif.Schemes Verif.EndToEnd Verif.Symmetry Finset

noncomputable section

variable {E : Type} [NormedAddCommGroup E] [NormedSpace ℝ E] {r : ℕ} {ι : Type*}

/-- Families of arrays with smooth coefficients. -/
def Sm (r : ℕ) (x : E → Arr ι) : Prop := ∀ i, ContDiff ℝ r fun p => x p i

theorem Sm.add {x y : E → Arr ι} (hx : Sm r x) (hy : Sm r y) : Sm r fun p => x p + y p := fun i => (hx i).add (hy i)

theorem Sm.mul {x y : E → Arr ι} (hx : Sm r x) (hy : Sm r y) : Sm r fun p => x p * y p := fun i => (hx i).mul (hy i)

theorem Sm.smul {a : E → ℂ} {x : E → Arr ι} (ha : ContDiff ℝ r a) (hx : Sm r x) : Sm r fun p => a p • x p := fun i => ha.mul (hx i)

theorem Sm.div {x : E → Arr ι} (hx : Sm r x) (c : Arr ι) : Sm r fun p => x p / c := fun i => (hx i).div_const (c i)

theorem Sm.const (c : Arr ι) : Sm r fun _ : E => c := fun _ => contDiff_const

theorem cd_ofReal {a : E → ℝ} (ha : ContDiff ℝ r a) : ContDiff ℝ r fun p => (a p : ℂ) := Complex.ofRealCLM.contDiff.comp ha

theorem timeStep_smooth {N : E → Arr ι → Arr ι} (hN : ∀ x : E → Arr ι, Sm r x → Sm r fun p => N p (x p)) (sc : Scheme) {dt : E → ℝ}
    (hdt : ContDiff ℝ r dt) {d d2 : E → Arr ι} (hd : Sm r d) (hd2 : Sm r d2) (ps pa pb : Arr ι) (h : E → Heap ι)
    (hs : Sm r fun p => h p .state) :
    Sm r fun p => timeStepRK sc (fun _ => N p) (dt p) (d p) (d2 p) ps pa pb (h p) .state := by
  have hdt' := cd_ofReal hdt
  cases sc <;>
    simp only [timeStepRK, euler, eulerPhaseshift, eulerPhaseshiftRandom, rk2, rk2Trapezoid, rk2Phaseshift, rk2PhaseshiftRandom,
      rk2PhaseshiftExact, rk4, tendencies, stepEuler, stepLikeRK2, meanWithPhaseshift, mulShift, divInplace, set_same, set_other, ne_eq,
      reduceCtorEq, not_false_eq_true] <;>
    repeat (first | assumption | exact contDiff_const | exact hdt'.div_const _ | apply Sm.const | apply hN | apply Sm.add | apply Sm.smul | apply Sm.mul | apply Sm.div)

variable {project : Arr ι → Arr ι} {sc : Scheme} {N : E → ℕ → Arr ι → Arr ι} {f : E → Arr ι} {mask : ι → Bool}
  {ps pa pb : ℕ → Arr ι} {heap : Heap ι} {g1 g2 : Arr ι} {cfl : Bool} {u0 : E → Arr ι} {dt : E → ℕ → ℝ}

theorem stepping_smooth (hdt : SmoothSteps r cfl dt) (hN : ∀ m (x : E → Arr ι), Sm r x → Sm r fun p => N p m (x p))
    (hproj : ∀ x : E → Arr ι, Sm r x → Sm r fun p => project (x p)) (hf : Sm r f) (h0 : Sm r u0) (k : ℕ) :
    Sm r fun p => (stepping project sc (N p) (f p) mask ps pa pb heap g1 g2 cfl (u0 p) (dt p) k).heap .state := by
  induction k with
  | zero => simpa only [stepping, set_same] using h0
  | succ k ih =>
    have e := fun p => Invariants.coefs_get (f := f p) (g1 := g1) (g2 := g2) (project := project) (sc := sc) (N := N p) (mask := mask)
      (ps := ps) (pa := pa) (pb := pb) (heap := heap) (u0 := u0 p) (hdt.ne p) (fun h => hdt.fix h p) k
    have e1 := fun p => (e p).1
    have e2 := fun p => (e p).2
    simp only [stepping, oneStep3d, Schemes.dealias, set_same, e1, e2]
    have hd := cd_ofReal (hdt.smooth k)
    have key := hproj _ (timeStep_smooth (hN k) sc (hdt.smooth k) (d := fun p i => Complex.exp (-dt p k * f p i))
      (d2 := fun p i => Complex.exp (-dt p k / 2 * f p i)) (fun i => (hd.neg.mul (hf i)).cexp)
      (fun i => ((hd.neg.div_const 2).mul (hf i)).cexp) (ps k) (pa k) (pb k) _ ih)
    intro i
    by_cases hi : mask i
    · simp only [hi, if_true]
      exact contDiff_const
    · simp only [hi, if_false]
      exact key i

variable {D V : Type*} [Fintype D] [DecidableEq (D → ℤ)] [Fintype V] {S G : Finset (D → ℤ)}

theorem smooth_fields {x : E → Arr (V × G)} (hx : Sm r x) (v : V) (k : D → ℤ) : ContDiff ℝ r fun p => fields G (x p) v k := by
  by_cases hk : k ∈ G
  · simp only [fields, hk, dif_pos]
    exact hx (v, ⟨k, hk⟩)
  · simp only [fields, hk, dif_neg, not_false_eq_true]
    exact contDiff_const

theorem smooth_tendency {tend : (V → Fld D) → V → Fld D} (h : ∀ v k, ContDiff ℝ r fun a : Arr (V × G) => tend (fields G a) v k)
    {F : E → V → Fld D} (hF : SmoothFields r F) (x : E → Arr (V × G)) (hx : Sm r x) :
    Sm r fun p => onArrays G (forced (F p) tend) (x p) := fun i =>
  ((h i.1 i.2.1).comp (contDiff_pi.2 hx)).add (hF i.1 i.2.1)

theorem dependsFreq (freq : V → Fld D) {project : Arr (V × G) → Arr (V × G)}
    (hproj : ∀ (E : Type) [NormedAddCommGroup E] [NormedSpace ℝ E] (r : ℕ) (x : E → Arr (V × G)), Sm r x → Sm r fun p => project (x p))
    {tend : (V → Fld D) → V → Fld D} (h : ∀ (r : ℕ) v k, ContDiff ℝ r fun a : Arr (V × G) => tend (fields G a) v k) :
    DependsSmoothly (runFreq S G freq project tend) := by
  intro c E _ _ r dt F u0 hdt hF h0 k v q
  simp only [runFreq]
  exact smooth_fields (stepping_smooth (f := fun _ i => freq i.1 i.2.1) hdt (fun m x hx => smooth_tendency (h r) (hF m) x hx) (hproj E r) (fun _ => contDiff_const) (fun i => h0 i.1 i.2.1) k) v q

theorem depends (δ : D → ℝ) (nu : Dissip.Nu) {project : Arr (V × G) → Arr (V × G)}
    (hproj : ∀ (E : Type) [NormedAddCommGroup E] [NormedSpace ℝ E] (r : ℕ) (x : E → Arr (V × G)), Sm r x → Sm r fun p => project (x p))
    {tend : (V → Fld D) → V → Fld D} (h : ∀ (r : ℕ) v k, ContDiff ℝ r fun a : Arr (V × G) => tend (fields G a) v k) :
    DependsSmoothly (run S G δ nu project tend) := by
  intro c E _ _ r dt F u0 hdt hF h0 k v q
  simp only [run]
  exact smooth_fields (stepping_smooth (f := fun _ => freqDiss G δ nu) hdt (fun m x hx => smooth_tendency (h r) (hF m) x hx) (hproj E r) (fun _ => contDiff_const) (fun i => h0 i.1 i.2.1) k) v q

end

end Verif.Smooth
