import Verif.SpatioTemporal.ModelPlot

/-!
Model of the files of the temporal spectra and of the figure which shows them
(/repo/fluidsim/base/output/temporal_spectra.py 602-697, 798-841), for probes whose series do not
change between the calls.  (What happens when the simulation continues between the calls is in
`ModelPlot` and `C62_reuse_partial`.)
-/

namespace Verif.SpatioTemporal

/-- Text. -/
abbrev Txt := List Char

/-- The arguments of `plot_spectra`, `save_spectra` and `load_spectra` (602-604, 806, 828) once the
default values are set, as the texts `str(...)` of the numbers (and of the type, if any). -/
structure Req where
  region : List Txt
  tmin : Txt
  tmax : Txt
  dtype : Option Txt
  deriving DecidableEq

/-- `"_".join(...)` (800). -/
def joinUnder : List Txt → Txt
  | [] => []
  | [a] => a
  | a :: b :: l => a ++ '_' :: joinUnder (b :: l)

/-- `_get_path_saved_spectra` (798-804): the name of the file. -/
def savedName (r : Req) : Txt :=
  let base := "periodogram_".toList ++ joinUnder r.region ++ '_' :: r.tmin ++ '_' :: r.tmax
  let base := match r.dtype with
    | none => base
    | some d => base ++ '_' :: d
  base ++ ".h5".toList

/-- The calls of a user. -/
inductive Call where
  | plot (r : Req)
  | save (r : Req)
  | load (r : Req)

/-- The request of a call. -/
def Call.req : Call → Req
  | .plot r => r
  | .save r => r
  | .load r => r

/-- The directory: content of the file with a given name. -/
abbrev Saved (S : Type*) := Txt → Option S

/-- `save_spectra` (806-826): the spectra are computed, written (mode `"w"`) and returned. -/
def saveSpectra {S : Type*} (compute : Req → S) (dir : Saved S) (r : Req) : S × Saved S :=
  (compute r, Function.update dir (savedName r) (some (compute r)))

/-- `load_spectra` (828-841): what is in the file; `none` is the error of a missing file. -/
def loadSpectra {S : Type*} (dir : Saved S) (r : Req) : Option S := dir (savedName r)

/-- One call: `plot_spectra` loads the file if it exists and saves it otherwise (614-623).
Returns the spectra drawn, or returned to the user. -/
def call {S : Type*} (compute : Req → S) (dir : Saved S) : Call → Option S × Saved S
  | .plot r => match dir (savedName r) with
    | some _ => (loadSpectra dir r, dir)
    | none => let (s, dir) := saveSpectra compute dir r; (some s, dir)
  | .save r => let (s, dir) := saveSpectra compute dir r; (some s, dir)
  | .load r => (loadSpectra dir r, dir)

/-- The calls one after the other: what each of them gives. -/
def calls {S : Type*} (compute : Req → S) : Saved S → List Call → List (Option S)
  | _, [] => []
  | dir, c :: cs => (call compute dir c).1 :: calls compute (call compute dir c).2 cs

noncomputable section

/-- The arrays of a file of temporal spectra: the frequencies and the spectra by key. -/
structure TSpectra where
  omegas : List ℝ
  spectra : List (String × List ℝ)

/-- `spectra["spectrum_" + key]`: `none` is the `KeyError`. -/
def TSpectra.get (s : TSpectra) (key : String) : Option (List ℝ) :=
  (s.spectra.find? fun p => p.1 == key).map Prod.snd

/-- What `plot_spectra` draws: the curves, the marks of the resonant modes, and the two ends of the
line with the slope −2. -/
structure TFigure where
  curves : List (List ℝ × List ℝ)
  marks1 : List ℝ
  marks2 : List ℝ
  slope : ℝ → ℝ

/-- `plot_spectra` (640-697): `N` is `params.N` of the solvers with a stratification, `none` for
the others; `Lx`, `Lv` are the lengths of the box (the last one vertical).  `none` is an error
(`KeyError`; an empty array has no `argmin`).  Labels, limits and guides are not modelled. -/
def plotT (N : Option ℝ) (Lx Lv : ℝ) (s : TSpectra) (key : String) : Option TFigure :=
  match N with
  | none => (s.get key).map fun E => ⟨[(s.omegas, E)], [], [], fun _ => 0⟩
  | some N => do
      let EK ← s.get "K"
      let EA ← s.get "A"
      let omegas := s.omegas.map fun w => w / N
      let EKN ← EK[nearestIdx omegas 1]?
      pure ⟨[(omegas, EK), (omegas, EA)],
        (List.range' 1 10).map fun nx => resonant Lx Lv nx 1,
        (List.range' 1 10).map fun nx => resonant Lx Lv nx 2,
        fun x => EKN * x ^ (-2 : ℝ)⟩

end

end Verif.SpatioTemporal
