import Verif.Symmetry.Plate
import Verif.Symmetry.PropsMirrorEx

/-! # C95, C98: plate2d -/

namespace Verif.Symmetry

open Verif.Fourier Verif.Vectors Verif.Energy Verif.Galerkin Verif.Schemes Verif.EndToEnd Finset

noncomputable section

variable {n : Fin 2 → ℕ} {S H G : Finset (Fin 2 → ℤ)} {δ : Fin 2 → ℝ}

/-- C95 (plate2d): the unit of time is fixed by the unit of length, since the rigidity is one: multiply the lengths by `ℓ` and the times
by `ℓ²`, and take the point `s` as the origin. Then the displacement computed by plate2d is the old one with this origin, and the velocity
the old one divided by `ℓ²`, if the truncation keeps less than a half of the modes (`coef_dealiasing <= 1/2`). -/
theorem C95_plate2d (h : Half n S H) (G : Finset (Fin 2 → ℤ)) (hδ : ∀ d, δ d ≠ 0) (s : Fin 2 → ℝ) {ℓ : ℝ} (hℓ : 0 < ℓ) (nu : Dissip.Nu)
    {c c' : Numerics (Fin 2) (Fin 2)} (hc : SameNumerics (ℓ ^ 2) c c') (hdt : ∀ k, c.dt k ≠ 0) (F : ℕ → Fin 2 → Fld (Fin 2))
    (u0 : Fin 2 → Fld (Fin 2)) (k : ℕ) :
    runPlate n S H G (fun d => δ d / ℓ) (newNu ℓ (ℓ ^ 2) nu) c' (fun m => transformed δ s (fun v => ![1 / ℓ ^ 2, 1] v / ℓ ^ 2) (F m))
        (transformed δ s ![1 / ℓ ^ 2, 1] u0) k
      = transformed δ s ![1 / ℓ ^ 2, 1] (runPlate n S H G δ nu c F u0 k) := by
  refine runFreq_units δ s (by positivity) ![1 / ℓ ^ 2, 1] (fun v q => ?_) (tendPlate_units h hδ s hℓ.ne') hc hdt F u0 k
  simp only [freqPlate]
  split
  · rw [← fd_units hℓ (by positivity : 0 < ℓ ^ 2) nu δ q]
    push_cast
    rfl
  · simp

/-- C98 (plate2d): the run from the image of the initial state, with the image of the force, is the image of the run, for all the
symmetries of the box, and also when the plate is turned over (`side = -1`: the displacement and the velocity change of sign). -/
theorem C98_plate2d (h : Half n S H) (hSG : S ⊆ G) (g : Sym (Fin 2)) (hδ : ∀ d, δ d ≠ 0) (hg : g.Fits S δ) {side : ℤ} (hs : side * side = 1)
    (nu : Dissip.Nu) {c c' : Numerics (Fin 2) (Fin 2)} (hc : SymNumerics g c c') (hdt : ∀ k, c.dt k ≠ 0) {F : ℕ → Fin 2 → Fld (Fin 2)}
    (hF : ∀ m, Within S (F m)) {u0 : Fin 2 → Fld (Fin 2)} (h0 : Within S u0) (k : ℕ) :
    runPlate n S H G δ nu c' (fun m => g.image id (fun _ => side) (F m)) (g.image id (fun _ => side) u0) k
      = g.image id (fun _ => side) (runPlate n S H G δ nu c F u0 k) :=
  runFreq_image g hSG hg (fun _ => side) (fun v q => by simp only [freqPlate, waveSq_image g hg.box])
    (tendPlate_image g hg h hδ hs) (fun u v _ hk => tendPlate_out u v hk) hc hdt hF h0 k

/-- C98, consequence: a plate which is not forced, whose initial state changes of sign with a mirror symmetry, keeps this symmetry: it
does not move on the axis of the mirror. -/
theorem C98_plate2d_kept (h : Half n S H) (hSG : S ⊆ G) (g : Sym (Fin 2)) (hδ : ∀ d, δ d ≠ 0) (hg : g.Fits S δ) {side : ℤ}
    (hs : side * side = 1) (nu : Dissip.Nu) {c : Numerics (Fin 2) (Fin 2)} (hc : SymNumerics g c c) (hdt : ∀ k, c.dt k ≠ 0)
    {u0 : Fin 2 → Fld (Fin 2)} (h0 : Within S u0) (hu : g.image id (fun _ => side) u0 = u0) (k : ℕ) :
    g.image id (fun _ => side) (runPlate n S H G δ nu c (fun _ _ _ => 0) u0 k) = runPlate n S H G δ nu c (fun _ _ _ => 0) u0 k := by
  have := C98_plate2d h hSG g hδ hg hs nu hc hdt (F := fun _ _ _ => 0) (fun _ _ _ _ => rfl) h0 k
  rw [hu] at this
  rw [← this]
  congr 1
  funext m v q
  simp [Sym.image]

/-- The modes with `|k| ≤ 2` and those with `|k| ≤ 4`. -/
def exS2 : Finset (Fin 2 → ℤ) := Fintype.piFinset fun _ => Icc (-2) 2
def exS4 : Finset (Fin 2 → ℤ) := Fintype.piFinset fun _ => Icc (-4) 4

/-- The displacement `sin x` of a plate at rest. -/
def exSin : Fin 2 → Fld (Fin 2) := fun v k =>
  if v = 1 then (if k = ![1, 0] then -Complex.I / 2 else if k = ![-1, 0] then Complex.I / 2 else 0) else 0

/-- A case of the theorems: the displacement `sin x` changes of sign with the mirror `x → -x`. -/
example : Half (fun _ => 10) exS2 exS4 ∧ exMirror.Fits exS2 (fun _ => 1) ∧ Within exS2 exSin ∧
    exMirror.image id (fun _ => -1) exSin = exSin ∧ exSin 1 ![1, 0] ≠ 0 := by
  refine ⟨⟨fun _ => by norm_num, fun k hk d => ?_, fun k hk d => ?_, fun p hp q hq => ?_⟩, ?_, fun v k hk => ?_, ?_, by simp [exSin]⟩
  · have := mem_Icc.1 (Fintype.mem_piFinset.1 hk d)
    have : |k d| ≤ 2 := abs_le.2 this
    norm_num; omega
  · have := mem_Icc.1 (Fintype.mem_piFinset.1 hk d)
    have : |k d| ≤ 4 := abs_le.2 this
    norm_num; omega
  · refine Fintype.mem_piFinset.2 fun d => ?_
    have a := mem_Icc.1 (Fintype.mem_piFinset.1 hp d)
    have b := mem_Icc.1 (Fintype.mem_piFinset.1 hq d)
    rw [mem_Icc, Pi.add_apply]
    omega
  · exact C98_truncation exMirror (m := fun _ => 2) (fun _ => rfl) (fun _ => rfl)
  · have h1 : k ≠ ![1, 0] := by rintro rfl; exact hk (by decide)
    have h2 : k ≠ ![-1, 0] := by rintro rfl; exact hk (by decide)
    simp [exSin, h1, h2]
  · funext v k
    have e : exMirror.back k = ![-k 0, k 1] := by funext d; fin_cases d <;> simp [Sym.back, exMirror]
    have a1 : exMirror.back k = ![1, 0] ↔ k = ![-1, 0] := by
      rw [e]; simp only [funext_iff, Fin.forall_fin_two, Matrix.cons_val_zero, Matrix.cons_val_one, Matrix.cons_val_fin_one]; omega
    have a2 : exMirror.back k = ![-1, 0] ↔ k = ![1, 0] := by
      rw [e]; simp only [funext_iff, Fin.forall_fin_two, Matrix.cons_val_zero, Matrix.cons_val_one, Matrix.cons_val_fin_one]; omega
    simp only [Sym.image, exSin, id, a1, a2]
    by_cases hv : v = 1
    · simp only [hv, if_true]
      by_cases h1 : k = ![1, 0]
      · have h2 : k ≠ ![-1, 0] := by rw [h1]; decide
        simp only [h1, h2, if_true]
        have : (![1, 0] : Fin 2 → ℤ) ≠ ![-1, 0] := by decide
        simp only [this, if_false]
        push_cast; ring
      · by_cases h2 : k = ![-1, 0]
        · simp only [h1, h2, if_true, if_false]
          have : (![-1, 0] : Fin 2 → ℤ) ≠ ![1, 0] := by decide
          simp only [this, if_false]
          push_cast; ring
        · simp [h1, h2]
    · simp [hv]

end

end Verif.Symmetry
