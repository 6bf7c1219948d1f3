import Verif.EndToEnd.Spec
import Verif.Uxuy.Model

/-! # C90: specification -/

namespace Verif.Uxuy

open Verif.Fourier Verif.Energy Verif.Galerkin Verif.Schemes Verif.Convergence Verif.EndToEnd Finset

noncomputable section

/-- A run of ns2d: the field `rot_fft` after `k` steps. -/
def runNs2d (n : Fin 2 → ℕ) (S G : Finset (Fin 2 → ℤ)) (δ : Fin 2 → ℝ) (beta : ℝ) (nu : Dissip.Nu) (sc : Scheme) (F : Fld (Fin 2))
    (ps pa pb : ℕ → G → ℂ) (heap : Heap (Unit × G)) (g1 g2 : Arr (Unit × G)) (cfl : Bool) (rot0 : Fld (Fin 2)) (dt : ℕ → ℝ) (k : ℕ) :
    Fld (Fin 2) :=
  fields G (states sc (onArrays G (forced (fun _ : Unit => F) (tend2d n S δ beta))) (freqDiss G δ nu) (truncated G S)
    (fun m i => ps m i.2) (fun m i => pa m i.2) (fun m i => pb m i.2) heap g1 g2 cfl (array G fun _ => rot0) dt k) ()

/-- No divergence: `∂x ux + ∂y uy = 0`. -/
def DivFree (δ : Fin 2 → ℝ) (u : Fin 2 → Fld (Fin 2)) : Prop := ∀ k, pd δ 0 (u 0) k + pd δ 1 (u 1) k = 0

/-- The vorticity `∂x uy - ∂y ux`. -/
def vorticity (δ : Fin 2 → ℝ) (u : Fin 2 → Fld (Fin 2)) : Fld (Fin 2) := fun k => pd δ 0 (u 1) k - pd δ 1 (u 0) k

/-- Rate of change of the kinetic energy `1/2 Σ (|ux|² + |uy|²)` when the velocity has the tendency `T`. -/
def rateKinetic (S : Finset (Fin 2 → ℤ)) (u T : Fin 2 → Fld (Fin 2)) : ℝ := rate S (u 0) (T 0) + rate S (u 1) (T 1)

/-- A flow given by its velocity, for `0 ≤ t ≤ T`: real, with modes in `S`, without divergence and mean, whose vorticity satisfies
`∂t ζ = -u·∇ζ - β uy - dissipation + curl F` (`EndToEnd.Flow2`). -/
structure FlowU (S : Finset (Fin 2 → ℤ)) (δ : Fin 2 → ℝ) (beta : ℝ) (nu : Dissip.Nu) (F : Fin 2 → Fld (Fin 2)) (T : ℝ)
    (u : ℝ → Fin 2 → Fld (Fin 2)) : Prop where
  real : ∀ t ∈ Set.Icc 0 T, ∀ v, RealField S (u t v)
  divFree : ∀ t ∈ Set.Icc 0 T, DivFree δ (u t)
  mean : ∀ t ∈ Set.Icc 0 T, ∀ v, u t v 0 = 0
  vort : Flow2 S δ beta nu (vorticity δ F) T fun t => vorticity δ (u t)

end

end Verif.Uxuy
