import Verif.Symmetry.Sw1l
import Verif.Symmetry.Props
import Verif.Symmetry.PropsMirrorEx

/-! # C95, C98: sw1l and sw1l.modified -/

namespace Verif.Symmetry

open Verif.Fourier Verif.Vectors Verif.Energy Verif.Galerkin Verif.Schemes Verif.EndToEnd Finset

noncomputable section

variable {n : Fin 2 → ℕ} {S G : Finset (Fin 2 → ℤ)}

/-- C95 (sw1l): take the point `s` as the origin, multiply the lengths by `ℓ` and the times by `τ`, and so `f` by `1 / τ` and `c2` by
`(ℓ / τ)²`. Then the velocity computed by sw1l is the old one with this origin, multiplied by `ℓ / τ`, and the height (which has no
dimension) is the old one with this origin, whatever the scheme, the number of steps and the contents of the arrays. -/
theorem C95_sw1l (hn : ∀ d, 0 < n d) (hS : NoAlias n S) (G : Finset (Fin 2 → ℤ)) (p : Sw1l.Par) (s : Fin 2 → ℝ) {ℓ τ : ℝ} (hℓ : 0 < ℓ)
    (hτ : 0 < τ) (nu : Dissip.Nu) {c c' : Numerics (Fin 2) (Fin 3)} (hc : SameNumerics τ c c') (hdt : ∀ k, c.dt k ≠ 0)
    (F : ℕ → Fin 3 → Fld (Fin 2)) (u0 : Fin 3 → Fld (Fin 2)) (k : ℕ) :
    runSw1l (newPar ℓ τ p) n S G (newNu ℓ τ nu) c' (fun m => transformed p.δ s (fun v => ![ℓ / τ, ℓ / τ, 1] v / τ) (F m))
        (transformed p.δ s ![ℓ / τ, ℓ / τ, 1] u0) k
      = transformed p.δ s ![ℓ / τ, ℓ / τ, 1] (runSw1l p n S G nu c F u0 k) :=
  run_units p.δ s hℓ hτ (factorsSw ℓ τ) (P := id) (P' := id) (fun _ => rfl) (id_onArrays G) (id_onArrays G)
    (tendSw1l_units hn hS p s hℓ.ne' hτ.ne') hc hdt F u0 k

/-- C95 (sw1l.modified). -/
theorem C95_sw1l_modified (hn : ∀ d, 0 < n d) (hS : NoAlias n S) (G : Finset (Fin 2 → ℤ)) {p : Sw1l.Par} (hδ : ∀ d, p.δ d ≠ 0)
    (s : Fin 2 → ℝ) {ℓ τ : ℝ} (hℓ : 0 < ℓ) (hτ : 0 < τ) (nu : Dissip.Nu) {c c' : Numerics (Fin 2) (Fin 3)} (hc : SameNumerics τ c c')
    (hdt : ∀ k, c.dt k ≠ 0) (F : ℕ → Fin 3 → Fld (Fin 2)) (u0 : Fin 3 → Fld (Fin 2)) (k : ℕ) :
    runModified (newPar ℓ τ p) n S G (newNu ℓ τ nu) c' (fun m => transformed p.δ s (fun v => ![ℓ / τ, ℓ / τ, 1] v / τ) (F m))
        (transformed p.δ s ![ℓ / τ, ℓ / τ, 1] u0) k
      = transformed p.δ s ![ℓ / τ, ℓ / τ, 1] (runModified p n S G nu c F u0 k) :=
  run_units p.δ s hℓ hτ (factorsSw ℓ τ) (P := id) (P' := id) (fun _ => rfl) (id_onArrays G) (id_onArrays G)
    (tendModified_units hn hS p hδ s hℓ.ne' hτ.ne') hc hdt F u0 k

/-- C98 (sw1l): the run from the image of the initial velocity and height, with the image of the force, is the image of the run, for all
the symmetries of the box; with a Coriolis force, for the rotations by a right angle or a half turn. -/
theorem C98_sw1l (hn : ∀ d, 0 < n d) (hS : NoAlias n S) (hSG : S ⊆ G) (g : Sym (Fin 2)) {p : Sw1l.Par} (hg : g.Fits S p.δ)
    (hf : p.f = 0 ∨ det2 g = 1) (nu : Dissip.Nu) {c c' : Numerics (Fin 2) (Fin 3)} (hc : SymNumerics g c c') (hdt : ∀ k, c.dt k ≠ 0)
    {F : ℕ → Fin 3 → Fld (Fin 2)} (hF : ∀ m, Within S (F m)) {u0 : Fin 3 → Fld (Fin 2)} (h0 : Within S u0) (k : ℕ) :
    runSw1l p n S G nu c' (fun m => imageSw g (F m)) (imageSw g u0) k = imageSw g (runSw1l p n S G nu c F u0 k) :=
  run_image g hSG hg (varsSw g) (signsSw g) (P := id) (fun _ => rfl) (id_onArrays G) (fun u => tendSw1l_image g u hn hS hg hf)
    (fun u v _ hk => tendSw1l_out p u v hk) hc hdt hF h0 k

/-- C98 (sw1l.modified). -/
theorem C98_sw1l_modified (hn : ∀ d, 0 < n d) (hS : NoAlias n S) (hSG : S ⊆ G) (g : Sym (Fin 2)) {p : Sw1l.Par} (hδ : ∀ d, p.δ d ≠ 0)
    (hg : g.Fits S p.δ) (hf : p.f = 0 ∨ det2 g = 1) (nu : Dissip.Nu) {c c' : Numerics (Fin 2) (Fin 3)} (hc : SymNumerics g c c')
    (hdt : ∀ k, c.dt k ≠ 0) {F : ℕ → Fin 3 → Fld (Fin 2)} (hF : ∀ m, Within S (F m)) {u0 : Fin 3 → Fld (Fin 2)} (h0 : Within S u0) (k : ℕ) :
    runModified p n S G nu c' (fun m => imageSw g (F m)) (imageSw g u0) k = imageSw g (runModified p n S G nu c F u0 k) :=
  run_image g hSG hg (varsSw g) (signsSw g) (P := id) (fun _ => rfl) (id_onArrays G) (fun u => tendModified_image g u hn hS hδ hg hf)
    (fun u v _ hk => tendModified_out p u v hk) hc hdt hF h0 k

/-- The Euler scheme with time steps 1. -/
def exNumSw : Numerics (Fin 2) (Fin 3) :=
  ⟨.Euler, fun _ _ => 1, fun _ _ => 1, fun _ _ => 1, fun _ _ _ => 0, fun _ _ => 0, fun _ _ => 0, false, fun _ => 1⟩

/-- A uniform velocity along x and a height `1 + cos x`. -/
def exSw : Fin 3 → Fld (Fin 2) := fun v k =>
  if v = 0 ∧ k = 0 then 1 else if v = 2 ∧ (k = ![1, 0] ∨ k = ![-1, 0]) then 1 / 2 else 0

theorem exSw_within : Within (okS (Fin 2)) exSw := by
  intro v k hk
  have h0 : k ≠ 0 := by
    rintro rfl; exact hk (by simp [okS])
  have h1 : ¬ (k = ![1, 0] ∨ k = ![-1, 0]) := by
    rintro (rfl | rfl) <;> exact hk (by decide)
  simp [exSw, h0, h1]

/-- C98, the hypothesis on the Coriolis force is needed: with `f = 1`, the tendencies of the mirror image of a state are not the mirror
image of its tendencies. -/
theorem C98_coriolis :
    tendSw1l ⟨fun _ => 1, 1, 1⟩ (fun _ => 8) (okS (Fin 2)) (imageSw exMirror exSw)
      ≠ imageSw exMirror (tendSw1l ⟨fun _ => 1, 1, 1⟩ (fun _ => 8) (okS (Fin 2)) exSw) := by
  intro h
  have h1 := congrFun (congrFun h 1) 0
  have hm : (0 : Fin 2 → ℤ) ∈ okS (Fin 2) := by simp [okS]
  have hb : exMirror.back 0 = 0 := by decide
  have hn : ∀ d : Fin 2, 0 < (fun _ : Fin 2 => 8) d := fun _ => by norm_num
  have z1 : exSw 1 = fun _ => 0 := by funext k; simp [exSw]
  have z2 : imageSw exMirror exSw 1 = fun _ => 0 := by
    funext k; simp [imageSw, Sym.image, exMirror, exSw]
  have adv : ∀ U, advect (okS (Fin 2)) (fun _ => 1) U (fun _ => 0) 0 = 0 := by
    intro U; simp [advect, exactProduct, pd]
  have e0 : imageSw exMirror exSw 0 0 = -1 := by
    rw [imageSw_eq, hb]; simp [signsSw, varsSw, exMirror, exSw]
  rw [imageSw_eq, hb, (tendSw1l_exact _ hn (okS_noAlias _) _ hm).2.1, z2, adv] at h1
  have hv : varsSw exMirror 1 = 1 := by decide
  have hs : signsSw exMirror 1 = 1 := by decide
  rw [hv, hs, (tendSw1l_exact _ hn (okS_noAlias _) _ hm).2.1, z1, adv, e0] at h1
  simp [pd, exSw] at h1
  norm_num at h1

/-- A case of the theorems: the rotation by a right angle of a rotating shallow water. -/
example : NoAlias (fun _ : Fin 2 => 8) (okS (Fin 2)) ∧ exQuarter.Fits (okS (Fin 2)) (fun _ => 1) ∧ det2 exQuarter = 1 ∧
    SymNumerics exQuarter exNumSw exNumSw ∧ (∀ k, exNumSw.dt k ≠ 0) ∧ Within (okS (Fin 2)) exSw ∧ exSw 0 0 ≠ 0 ∧
    imageSw exQuarter exSw ≠ exSw ∧ SameNumerics 1 exNumSw exNumSw := by
  refine ⟨okS_noAlias _, okS_fits _, by decide, ⟨rfl, rfl, rfl, fun _ _ => ⟨rfl, rfl, rfl⟩⟩, fun _ => one_ne_zero, exSw_within, by simp [exSw],
    fun h => ?_, ⟨rfl, rfl, fun _ => (one_mul _).symm, fun _ _ => ⟨rfl, rfl, rfl⟩⟩⟩
  have := congrFun (congrFun h 0) 0
  have hb : exQuarter.back 0 = 0 := by decide
  have hv : varsSw exQuarter 0 = 1 := by decide
  rw [imageSw_eq, hb, hv] at this
  simp [exSw] at this

end

end Verif.Symmetry
