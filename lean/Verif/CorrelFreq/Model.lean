import Mathlib.Analysis.SpecialFunctions.Complex.Circle
import Mathlib.Analysis.SpecialFunctions.Trigonometric.Basic
import Mathlib.Algebra.Order.Floor.Semiring
import Mathlib.Data.Nat.Log

/-! # C75: the correlations of frequencies of plate2d

`CorrelationsFreq` (fluidsim/solvers/plate2d/output/correlations_freq.py). Simplifications: floating-point
numbers are real numbers; the time step is constant, the time of the iteration `it` is `it * deltat` and
`np.log(n) / np.log(2) % 1 == 0` is "`n` is a power of two"; the loops which add the elements one by one are
sums of lists. -/

namespace Verif.CorrelFreq

noncomputable section

/-- `self.nb_omegas` (correlations_freq.py 197): the length of a real-to-complex transform of `N` values. -/
def nbOmegas (N : ℕ) : ℕ := N / 2 + 1

/-- `np.hanning(N)` (198). -/
def hanning (N n : ℕ) : ℝ :=
  if N = 1 then 1 else 0.5 - 0.5 * Real.cos (2 * Real.pi * n / ((N : ℝ) - 1))

/-- `self.oper_fft1.fft` (295): the element `io` of the transform of the `N` values `y` (fluiddyn,
`FFTW1DReal2Complex`, normalised by `1 / N`). -/
def fft1 (N : ℕ) (y : ℕ → ℝ) (io : ℕ) : ℂ :=
  (1 / N : ℝ) * ∑ n ∈ Finset.range N, (y n : ℂ) * Complex.exp (-(2 * Real.pi * (io : ℝ) * n / N : ℝ) * Complex.I)

/-! ### The loops -/

/-- The element of `q_fftt` used for `io2` (65-67, 75-76, 84) and if it is conjugated (73, 82, 90). -/
def index (nb : ℕ) (io2 : ℤ) : ℤ × Bool :=
  if io2 < 0 then (-io2, true)
  else if (nb : ℤ) ≤ io2 then (2 * nb - 1 - io2, true)
  else (io2, false)

/-- The product for one point (65-91). -/
def term (nb io1 io3 io4 : ℕ) (q : ℕ → ℂ) : ℂ :=
  let i := index nb ((io3 : ℤ) + io4 - io1)
  q io1 * (starRingEnd ℂ) (q io3) * (starRingEnd ℂ) (q io4) *
    (if i.2 then (starRingEnd ℂ) (q i.1.toNat) else q i.1.toNat)

/-- `compute_correl4_seq` (27-94) for one `io1`: the loop is over `io4 ≤ io3`. -/
def correl4Seq (nb io1 : ℕ) (sites : List (ℕ → ℂ)) (io3 io4 : ℕ) : ℂ :=
  if io4 ≤ io3 then (sites.map (term nb io1 io3 io4)).sum else (sites.map (term nb io1 io4 io3)).sum

/-- `compute_correl2_seq` (97-125): the loop is over `io4 ≤ io3`. -/
def correl2Seq (sites : List (ℕ → ℂ)) (io3 io4 : ℕ) : ℂ :=
  if io4 ≤ io3 then (sites.map fun q => q io3 * (starRingEnd ℂ) (q io4)).sum
  else (starRingEnd ℂ) (sites.map fun q => q io4 * (starRingEnd ℂ) (q io3)).sum

/-- `self.nb_xs_seq` in the process 0 (200-204); an element of `ranks` is what one process has. -/
def nbXs (ranks : List (List (ℕ → ℂ))) : ℕ := (ranks.map List.length).sum

/-- `compute_correl4` (128-136) in the process 0. -/
def correl4 (nb io1 : ℕ) (ranks : List (List (ℕ → ℂ))) (io3 io4 : ℕ) : ℂ :=
  (ranks.map fun s => correl4Seq nb io1 s io3 io4).sum / (nbXs ranks : ℂ)

/-- `compute_correl2` (139-147) in the process 0. -/
def correl2 (ranks : List (List (ℕ → ℂ))) (io3 io4 : ℕ) : ℂ :=
  (ranks.map fun s => correl2Seq s io3 io4).sum / (nbXs ranks : ℂ)

/-! ### The points -/

/-- The rows `field[::coef_decimate]` (187-193, 287) of a process which has `n` rows, the first one being the row `off` of the
whole field. -/
def decimated (c off n : ℕ) : List ℕ := (List.range ((n + c - 1) / c)).map fun i => off + i * c

/-- The rows used by all the processes, `ns` being their numbers of rows. -/
def rowsUsed (c : ℕ) : ℕ → List ℕ → List ℕ
  | _, [] => []
  | off, n :: ns => decimated c off n ++ rowsUsed c (off + n) ns

/-! ### `_online_save` -/

/-- The parameters: `periods_save.correl_freq`, `it_start`, `nb_times_compute`, and the correlations of one array
`spatio_temp` (a list of `nb_times_compute` fields). -/
structure Cfg (A V : Type) where
  period : ℝ
  itStart : ℤ
  nbTimes : ℕ
  corr : List A → V

/-- The attributes `it_last_run`, `spatio_temp` (its first `nb_times_in_spatio_temp` columns), the correlations,
`nb_means_times` and the records of the file. -/
structure St (A V : Type) where
  itLast : ℤ
  buf : List A
  mean : V
  nbMeans : ℕ
  file : List (V × ℕ)

variable {A V : Type} [AddCommGroup V] [Module ℝ V]

/-- A record is written for this number of averages (312-315). -/
def saved (m : ℕ) : Prop := (m % 128 = 0 ∨ m = 2 ^ Nat.log 2 m) ∧ m ≠ 1

instance (m : ℕ) : Decidable (saved m) := inferInstanceAs (Decidable (_ ∧ _))

/-- The end of a window (292-327). -/
def endWindow (c : Cfg A V) (s : St A V) (w : List A) : St A V :=
  let mean := (1 / ((s.nbMeans : ℝ) + 1)) • ((s.nbMeans : ℝ) • s.mean + c.corr w)
  let m := s.nbMeans + 1
  { itLast := s.itLast
    buf := []
    mean := mean
    nbMeans := m
    file := if saved m then s.file ++ [(mean, m)] else s.file }

/-- `_online_save` (279-329) at the iteration `it`, the decimated field being `x`. -/
def onlineSave (c : Cfg A V) (s : St A V) (it : ℤ) (x : A) : St A V :=
  open Classical in
  if c.period - 1 ≤ (it : ℝ) - s.itLast then
    let s1 : St A V := { s with itLast := it, buf := s.buf ++ [x] }
    if s1.buf.length = c.nbTimes then endWindow c s1 s1.buf else s1
  else s

/-- The object after `__init__` (186, 206-229): the last record of the file, if there is a file. -/
def start (c : Cfg A V) (file : List (V × ℕ)) : St A V :=
  match file.getLast? with
  | some r => ⟨c.itStart, [], r.1, r.2, file⟩
  | none => ⟨c.itStart, [], 0, 0, []⟩

/-- A new simulation after `n` iterations: `f it` is the decimated field at the iteration `it`. -/
def run (c : Cfg A V) (f : ℕ → A) : ℕ → St A V
  | 0 => start c []
  | n + 1 => onlineSave c (run c f n) ((n + 1 : ℕ) : ℤ) (f (n + 1))

/-- What happens to a simulation: an iteration, or it is stopped (or killed) and restarted in the same directory. -/
inductive Ev (A : Type) where
  | iter (it : ℤ) (x : A)
  | restart

def stepEv (c : Cfg A V) (s : St A V) : Ev A → St A V
  | .iter it x => onlineSave c s it x
  | .restart => start c s.file

def history (c : Cfg A V) (es : List (Ev A)) : St A V := es.foldl (stepEv c) (start c [])

/-- `spatio_fft` (195, 288-290, 295) in each process: `sizes` are the numbers of points of the processes, `w` the fields of
the window, functions of the process and of the point. -/
def spatioFft (sizes : List ℕ) (N : ℕ) (w : List (ℕ → ℕ → ℝ)) : List (List (ℕ → ℂ)) :=
  (List.range sizes.length).map fun r => (List.range (sizes.getD r 0)).map fun ix =>
    fft1 N fun n => hanning N n * (w.getD n (fun _ _ => 0)) r ix

/-- The correlations of plate2d (295-301). Simplification: `corr4` is a function of `io1` itself, instead of its index in
`iomegas1`. -/
def plate (period : ℝ) (itStart : ℤ) (N : ℕ) (sizes : List ℕ) :
    Cfg (ℕ → ℕ → ℝ) ((ℕ → ℕ → ℕ → ℂ) × (ℕ → ℕ → ℂ)) where
  period := period
  itStart := itStart
  nbTimes := N
  corr w := (fun io1 => correl4 (nbOmegas N) io1 (spatioFft sizes N w), correl2 (spatioFft sizes N w))

/-! ### Frequencies -/

/-- `self.omegas` (232-235) and the dataset "omegas" (261-268). -/
def omegas (deltat period : ℝ) (N i : ℕ) : ℝ := 2 * Real.pi / (N * (period * deltat)) * i

/-- The check of `__init__` (231-244): `true` if there is no exception; `iomax` is the largest element of
`iomegas1`. -/
def accepted (deltat period : ℝ) (N : ℕ) (iomax : ℤ) : Bool :=
  open Classical in
  if 0 < period then
    let dtOutput := period * deltat
    let deltaOmega := 2 * Real.pi / (N * dtOutput)
    if Real.pi / dtOutput ≤ iomax * deltaOmega then false else true
  else true

/-! ### Normalised correlations and plots -/

/-- The index `io2` in `compute_corr4_norm` (404-408). -/
def fold (nb io1 io3 io4 : ℕ) : ℕ := (index nb ((io3 : ℤ) + io4 - io1)).1.toNat

/-- `norm` (410-418), for `io4 ≤ io3` and by symmetry. -/
def norm4 (nb io1 : ℕ) (c2 : ℕ → ℕ → ℂ) (io3 io4 : ℕ) : ℝ :=
  let f := fun a b => √(‖c2 io1 io1 * c2 a a * c2 b b * c2 (fold nb io1 a b) (fold nb io1 a b)‖)
  if io4 ≤ io3 then f io3 io4 else f io4 io3

/-- `cum_norm` (420-427); `none`: a division by zero (nan or inf). -/
def cumNorm (nb io1 : ℕ) (c4 c2 : ℕ → ℕ → ℂ) (io3 io4 : ℕ) : Option ℝ :=
  open Classical in
  let f := fun a b =>
    let i2 := fold nb io1 a b
    let t1 := (starRingEnd ℂ) (c2 b i2) * c2 io1 a
    let t2 := c2 io1 b * (starRingEnd ℂ) (c2 a i2)
    ‖c4 a b - t1 - t2‖ / norm4 nb io1 c2 a b
  if norm4 nb io1 c2 io3 io4 = 0 then none
  else some (if io4 ≤ io3 then f io3 io4 else f io4 io3)

/-- `corr_norm` (429-432); `none`: a division by zero. -/
def corrNorm (nb io1 : ℕ) (c4 c2 : ℕ → ℕ → ℂ) (io3 io4 : ℕ) : Option ℝ :=
  open Classical in
  let f := fun a b => ‖c4 a b / (norm4 nb io1 c2 a b : ℂ)‖
  if norm4 nb io1 c2 io3 io4 = 0 then none
  else some (if io4 ≤ io3 then f io3 io4 else f io4 io3)

/-- `corr2_norm` of `plot_corr2` (599-604); `none`: a division by zero. -/
def corr2Norm (c2 : ℕ → ℕ → ℂ) (io3 io4 : ℕ) : Option ℂ :=
  open Classical in
  let d := fun a b : ℕ => √(‖c2 a a * c2 b b‖)
  if d io3 io4 = 0 then none
  else some (if io4 ≤ io3 then c2 io3 io4 / (d io3 io4 : ℂ)
    else (starRingEnd ℂ) (c2 io4 io3 / (d io4 io3 : ℂ)))

inductive Err where
  | index
  | value
  deriving DecidableEq, Repr

/-- `_online_plot_saving` (343-386) for `n` frequencies `iomegas1`: `corr[0]` and `corr[1]` are plotted. -/
def onlinePlot (n : ℕ) : Except Err Unit := if 1 < n then .ok () else .error .index

/-- Python's `round(a / b)`. -/
def roundDiv (a b : ℕ) : ℕ :=
  if 2 * (a % b) < b then a / b
  else if b < 2 * (a % b) then a / b + 1
  else if (a / b) % 2 = 0 then a / b else a / b + 1

/-- The figures of `plot_corr4` (654-657, 674, 691) for `n` frequencies: `plt.subplot(v, h, i1 + 1)` needs `i1 + 1 ≤ v * h`. -/
def plotCorr4 (n : ℕ) : Except Err Unit :=
  let v := Nat.sqrt n
  let h := roundDiv n v
  if n ≤ v * h then .ok () else .error .value

/-- The indices averaged along one axis by `_compute_norm_pick_corr4_from_corr4` (520-543). -/
def pick (nb io1 delta : ℕ) : List ℕ :=
  let d := min delta (4 * io1)
  (List.range nb).filter fun i => 4 * io1 - d ≤ i ∧ i < 4 * io1 + d + 1

end

end Verif.CorrelFreq
