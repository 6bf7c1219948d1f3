import Verif.Sw1lBudget.Model
import Verif.SpectBudget.Spec
import Verif.Galerkin.Spec
import Verif.Sw1l.Lemmas

/-! # Specification for C74 -/

namespace Verif.Sw1lBudget

open Verif.Fourier Verif.Energy Verif.Forcing Verif.Sw1l Verif.SpectBudget Verif.Galerkin Finset

/-- The eight products of one geostrophic (`G`) and two wave modes (`A`, `a`), and so on: the words of
three letters over the three modes. -/
def words : List (Fin 3 × Fin 3 × Fin 3) :=
  (List.finRange 3).flatMap fun i => (List.finRange 3).flatMap fun j => (List.finRange 3).map fun l =>
    (i, j, l)

/-- The letter of a mode. -/
def letter : Fin 3 → String
  | 0 => "G" | 1 => "A" | 2 => "a"

noncomputable section

/-- What the table of the groups announces: the group `g` contains the products of the modes `i`, `j`
and `l` whose word is in the list of the group. -/
def announced (n : Fin 2 → ℕ) (S : Finset Mode) (x y z : Fin 3 → Fld (Fin 2)) (g : List String) :
    Fld (Fin 2) := fun k =>
  ((words.filter fun w => g.contains (letter w.1 ++ letter w.2.1 ++ letter w.2.2)).map fun w =>
    (starRingEnd ℂ) (x w.1 k) * prod n S (y w.2.1) (z w.2.2) k).sum

/-- A variable of the flow, without its mean. -/
def fieldVar (p : Par) (u : Mode → UEta) (v : Var) : Fld (Fin 2) := fun k =>
  if k = 0 then 0 else match v with
    | .ux => (u k).ux
    | .uy => (u k).uy
    | .eta => (u k).eta
    | .urx => (rotState p u k).ux
    | .ury => (rotState p u k).uy

/-- A field of the flow, without its mean. -/
def field (p : Par) (u : Mode → UEta) : Key → Fld (Fin 2)
  | .var v => fieldVar p u v
  | .px v => pd p.δ 0 (fieldVar p u v)
  | .py v => pd p.δ 1 (fieldVar p u v)
  | .div => fun k => divOf p k (u k).ux (u k).uy

/-- Energy of a mode of a shallow-water flow, `½ Re (u* · (h u)) + ½ c² |η|²` with `h u = u + η u`: its
sum over the modes is the mean of `½ h |u|² + ½ c² η²`. -/
def energyH (p : Par) (S : Finset Mode) (u : Mode → UEta) (k : Mode) : ℝ :=
  let M := fun a : Fld (Fin 2) => exactProduct S (fun k => (u k).eta) a
  half (u k).ux + half (u k).uy
    + (((starRingEnd ℂ) (u k).ux * M (fun k => (u k).ux) k).re
      + ((starRingEnd ℂ) (u k).uy * M (fun k => (u k).uy) k).re) / 2
    + p.c2 * half (u k).eta

/-- At the time `t` the primitive variables change with the tendency `T`. -/
def EvolvesU (S : Finset Mode) (u : ℝ → Mode → UEta) (T : Mode → UEta) (σ : Mode → ℝ) (t : ℝ) : Prop :=
  Evolves S (fun s k => (u s k).ux) (fun k => (T k).ux) σ t ∧
  Evolves S (fun s k => (u s k).uy) (fun k => (T k).uy) σ t ∧
  Evolves S (fun s k => (u s k).eta) (fun k => (T k).eta) σ t

/-- Sum of the values of the groups. -/
def total (d : List (String × (Mode → ℝ))) (k : Mode) : ℝ := (d.map fun e => e.2 k).sum

end

end Verif.Sw1lBudget
