import Mathlib.Algebra.Order.Field.Basic
import Mathlib.Algebra.Order.Round
import Mathlib.Data.Rat.Floor

/-!
# Positions of Fourier modes in arrays: change of resolution (C24), index maps (C25),
# lookup of a wavenumber (C27)

An array is a function on its multi-indices. Indices written in the program are integers;
they are interpreted with Python's convention (negative indices count from the end, anything
out of range raises `IndexError`).
-/

namespace Verif.Modes

/-! ### Arrays -/

/-- Python's interpretation of the index `i` on an axis of length `n`. -/
def pyIdx (n : ℕ) (i : ℤ) : Option ℕ :=
  if 0 ≤ i ∧ i < n then some i.toNat
  else if -(n : ℤ) ≤ i ∧ i < 0 then some (n + i).toNat
  else none

/-- Multi-index of a 2D array. -/
def pyIdx2 (sh : ℕ × ℕ) (i : ℤ × ℤ) : Option (ℕ × ℕ) :=
  match pyIdx sh.1 i.1, pyIdx sh.2 i.2 with
  | some a, some b => some (a, b)
  | _, _ => none

/-- Multi-index of a 3D array. -/
def pyIdx3 (sh : ℕ × ℕ × ℕ) (i : ℤ × ℤ × ℤ) : Option (ℕ × ℕ × ℕ) :=
  match pyIdx sh.1 i.1, pyIdx sh.2.1 i.2.1, pyIdx sh.2.2 i.2.2 with
  | some a, some b, some c => some (a, b, c)
  | _, _, _ => none

/-- The assignments `out[d] = in[s]` executed one after the other, for the pairs `(d, s)` of
a list. `nd` and `ns` interpret the indices of the two arrays. -/
def assign {I J I' J' A : Type*} [DecidableEq J] (nd : I → Option J) (ns : I' → Option J')
    (inp : J' → A) : List (I × I') → (J → A) → Except String (J → A)
  | [], out => .ok out
  | (d, s) :: ws, out =>
    match nd d, ns s with
    | some d, some s => assign nd ns inp ws (Function.update out d (inp s))
    | _, _ => .error "IndexError"

/-! ### Index maps -/

/-- `_kadim_from_ik` (fluidsim/operators/operators3d.py 1196-1199). -/
def kadimFromIk (ik : ℤ) (nk : ℕ) (first : Bool := false) : ℤ :=
  if first ∨ ik ≤ ((nk / 2 : ℕ) : ℤ) then ik else ik - nk

/-- `_ik_from_kadim` (operators3d.py 1202-1205). -/
def ikFromKadim (k : ℤ) (nk : ℕ) (first : Bool := false) : ℤ :=
  if first ∨ 0 ≤ k then k else nk + k

/-- `_ikxyzseq_from_ik012rank` (operators3d.py 1054-1066): `std` is
`oper_fft.get_dimX_K() == (0, 1, 2)`, `mpiLib` is `_is_mpi_lib`. Result (ikx, iky, ikz). -/
def ikxyzFromIk012 (mpiLib std : Bool) (i : ℤ × ℤ × ℤ) : Except String (ℤ × ℤ × ℤ) :=
  if mpiLib then .error "NotImplementedError"
  else if std then .ok (i.2.2, i.2.1, i.1)
  else .error "NotImplementedError"

/-- `_ik012rank_from_ikxyzseq` (operators3d.py 1068-1079), without the rank (always 0). -/
def ik012FromIkxyz (mpiLib std : Bool) (i : ℤ × ℤ × ℤ) : Except String (ℤ × ℤ × ℤ) :=
  if mpiLib then .error "NotImplementedError"
  else if std then .ok (i.2.2, i.2.1, i.1)
  else .error "NotImplementedError"

/-- Numbers of grid points `(nx, ny, nz)`, as far as the maps use them. -/
structure Sizes where
  ny : ℕ
  nz : ℕ

/-- `kadim_from_ik012rank` (operators3d.py 1095-1098 with 1081-1086): (kx, ky, kz) from
(ik0, ik1, ik2). -/
def kadimFromIk012 (mpiLib std : Bool) (n : Sizes) (i : ℤ × ℤ × ℤ) :
    Except String (ℤ × ℤ × ℤ) := do
  let (ikx, iky, ikz) ← ikxyzFromIk012 mpiLib std i
  return (ikx, kadimFromIk iky n.ny, kadimFromIk ikz n.nz)

/-- `ik012rank_from_kadim` (operators3d.py 1100-1103 with 1088-1093). -/
def ik012FromKadim (mpiLib std : Bool) (n : Sizes) (k : ℤ × ℤ × ℤ) :
    Except String (ℤ × ℤ × ℤ) :=
  ik012FromIkxyz mpiLib std (k.1, ikFromKadim k.2.1 n.ny, ikFromKadim k.2.2 n.nz)

/-- `set_value_spect` (operators3d.py 1105-1116) for one process. -/
def setValue {A : Type} (mpiLib std : Bool) (n : Sizes) (sh : ℕ × ℕ × ℕ)
    (arr : ℕ × ℕ × ℕ → A) (v : A) (k : ℤ × ℤ × ℤ) : Except String (ℕ × ℕ × ℕ → A) := do
  let i ← ik012FromKadim mpiLib std n k
  match pyIdx3 sh i with
  | some j => return Function.update arr j v
  | none => throw "IndexError"

/-- `get_value_spect` (operators3d.py 1118-1125) for one process. -/
def getValue {A : Type} (mpiLib std : Bool) (n : Sizes) (sh : ℕ × ℕ × ℕ)
    (arr : ℕ × ℕ × ℕ → A) (k : ℤ × ℤ × ℤ) : Except String A := do
  let i ← ik012FromKadim mpiLib std n k
  match pyIdx3 sh i with
  | some j => return arr j
  | none => throw "IndexError"

/-- The six values `dimX_K` can have: `dimX_K[j]` is the physical axis (0 = z, 1 = y, 2 = x)
stored along axis `j` of the spectral arrays. -/
abbrev DimXK := ℕ × ℕ × ℕ

/-- `i012_from_ixyz` (operators3d.py 1148-1163). -/
def i012FromIxyz (sequential : Bool) (dimX_K : DimXK) (ix iy iz : ℤ) :
    Except String (ℤ × ℤ × ℤ) :=
  if sequential then .ok (iz, iy, ix)
  else if dimX_K = (1, 0, 2) then .ok (iy, iz, ix)
  else if dimX_K = (0, 1, 2) then .ok (iz, iy, ix)
  else if dimX_K = (2, 1, 0) then .ok (ix, iy, iz)
  else if dimX_K = (1, 2, 0) then .ok (iy, ix, iz)
  else .error "NotImplementedError"

/-- `ixyz_from_i012` (operators3d.py 1165-1180). -/
def ixyzFromI012 (sequential : Bool) (dimX_K : DimXK) (i0 i1 i2 : ℤ) :
    Except String (ℤ × ℤ × ℤ) :=
  if sequential then .ok (i2, i1, i0)
  else if dimX_K = (1, 0, 2) then .ok (i2, i0, i1)
  else if dimX_K = (0, 1, 2) then .ok (i2, i1, i0)
  else if dimX_K = (2, 1, 0) then .ok (i0, i1, i2)
  else if dimX_K = (1, 2, 0) then .ok (i1, i0, i2)
  else .error "NotImplementedError"

/-! ### Change of resolution -/

/-- The assignments of `fill_field_fft_2d` (fluidsim/base/init_fields.py 300-314), in the
order of the loops; `nI`, `nO` are the shapes of the input and of the output. -/
def writes2d (nI nO : ℕ × ℕ) : List ((ℤ × ℤ) × (ℤ × ℤ)) :=
  let n0 := min nO.1 nI.1
  let n1 := min nO.2 nI.2
  ((List.range n1).flatMap fun (i1 : ℕ) =>
      [(((0 : ℤ), (i1 : ℤ)), ((0 : ℤ), (i1 : ℤ))),
       ((((n0 / 2 : ℕ) : ℤ), (i1 : ℤ)), (((n0 / 2 : ℕ) : ℤ), (i1 : ℤ)))]) ++
  (List.range' 1 (n0 / 2 - 1)).flatMap fun (i0 : ℕ) => (List.range n1).flatMap fun (i1 : ℕ) =>
      [(((i0 : ℤ), (i1 : ℤ)), ((i0 : ℤ), (i1 : ℤ))),
       ((-(i0 : ℤ), (i1 : ℤ)), (-(i0 : ℤ), (i1 : ℤ)))]

/-- `fill_field_fft_2d` (init_fields.py 300-314). -/
def fill2d {A : Type*} (nI nO : ℕ × ℕ) (inp out : ℕ × ℕ → A) :
    Except String (ℕ × ℕ → A) :=
  assign (pyIdx2 nO) (pyIdx2 nI) inp (writes2d nI nO) out

/-- `fill_field_fft_3d` of fluidsim/base/init_fields.py 317-337 for sequential operators
stored in the order (z, y, x): the value of index `(ik0, ik1, ik2)` of the input is written
at the wavenumber of that index. The sizes of the grids are those of the arrays
(`nz = nk0`, `ny = nk1`). -/
def writes3dInit (nI nO : ℕ × ℕ × ℕ) : List ((ℤ × ℤ × ℤ) × (ℤ × ℤ × ℤ)) :=
  (List.range (min nO.1 nI.1)).flatMap fun (i0 : ℕ) =>
  (List.range (min nO.2.1 nI.2.1)).flatMap fun (i1 : ℕ) =>
  (List.range (min nO.2.2 nI.2.2)).map fun (i2 : ℕ) =>
    ((ikFromKadim (kadimFromIk i0 nI.1) nO.1, ikFromKadim (kadimFromIk i1 nI.2.1) nO.2.1,
      (i2 : ℤ)), ((i0 : ℤ), (i1 : ℤ), (i2 : ℤ)))

/-- `fill_field_fft_3d` (init_fields.py 317-337). -/
def fill3dInit {A : Type*} (nI nO : ℕ × ℕ × ℕ) (inp out : ℕ × ℕ × ℕ → A) :
    Except String (ℕ × ℕ × ℕ → A) :=
  assign (pyIdx3 nO) (pyIdx3 nI) inp (writes3dInit nI nO) out

/-- The assignments of `fill_field_fft_3d` (fluidsim/util/mini_oper_modif_resol.py 26-53). -/
def writes3dMini (nI nO : ℕ × ℕ × ℕ) : List ((ℤ × ℤ × ℤ) × (ℤ × ℤ × ℤ)) :=
  let n0 := min nO.1 nI.1
  let n1 := min nO.2.1 nI.2.1
  let n2 := min nO.2.2 nI.2.2
  (List.range (n0 / 2 + 1)).flatMap fun (i0 : ℕ) =>
  (List.range (n1 / 2 + 1)).flatMap fun (i1 : ℕ) =>
  (List.range n2).flatMap fun (i2 : ℕ) =>
    let same (a b : ℤ) : (ℤ × ℤ × ℤ) × (ℤ × ℤ × ℤ) := ((a, b, (i2 : ℤ)), (a, b, (i2 : ℤ)))
    [same i0 i1] ++
    (if 0 < i0 ∧ i0 < n0 / 2 then
      [same (-(i0 : ℤ)) i1] ++
      (if 0 < i1 ∧ i1 < n1 / 2 then [same (-(i0 : ℤ)) (-(i1 : ℤ))] else [])
     else []) ++
    (if 0 < i1 ∧ i1 < n1 / 2 then [same i0 (-(i1 : ℤ))] else [])

/-- `fill_field_fft_3d` (mini_oper_modif_resol.py 26-53). -/
def fill3dMini {A : Type*} (nI nO : ℕ × ℕ × ℕ) (inp out : ℕ × ℕ × ℕ → A) :
    Except String (ℕ × ℕ × ℕ → A) :=
  assign (pyIdx3 nO) (pyIdx3 nI) inp (writes3dMini nI nO) out

/-- Shape of the spectral arrays of a sequential 2D grid of `nx × ny` points. -/
def shapeK2 (nx ny : ℕ) : ℕ × ℕ := (ny, nx / 2 + 1)

/-- `_make_state_spect_2d` (init_fields.py 346-362) for one variable (the loop on the keys
treats each variable alone): `g = (nx, ny)` of the new grid, `gi` of the input. -/
def makeStateSpect2d {A : Type*} [Zero A] (gi g : ℕ × ℕ) (inp : ℕ × ℕ → A) :
    Except String (ℕ × ℕ → A) :=
  if g.1 = gi.1 ∧ g.2 = gi.2 then .ok inp
  else fill2d (shapeK2 gi.1 gi.2) (shapeK2 g.1 g.2) inp (fun _ => 0)

/-- Shape of the spectral arrays of a sequential 3D grid of `nx × ny × nz` points. -/
def shapeK3 (g : ℕ × ℕ × ℕ) : ℕ × ℕ × ℕ := (g.2.2, g.2.1, g.1 / 2 + 1)

/-- `_make_state_spect_3d` (init_fields.py 364-384) for one variable; `g = (nx, ny, nz)`. -/
def makeStateSpect3d {A : Type*} [Zero A] (gi g : ℕ × ℕ × ℕ) (inp : ℕ × ℕ × ℕ → A) :
    Except String (ℕ × ℕ × ℕ → A) :=
  if g = gi then .ok inp
  else fill3dInit (shapeK3 gi) (shapeK3 g) inp (fun _ => 0)

/-! ### Lookup of a wavenumber -/

/-- Python's `int(np.round(x))`: nearest integer, ties to even. -/
def roundEven {K : Type*} [Field K] [LinearOrder K] [FloorRing K] (x : K) : ℤ :=
  let f := ⌊x⌋
  if x - f < 1 / 2 then f
  else if 1 / 2 < x - f then f + 1
  else if f % 2 = 0 then f else f + 1

/-- How the first axis of the spectral arrays is distributed: number of processes, first
index of each one (`iKxloc_start_rank`, `iK0loc_start_rank`). -/
structure Slabs where
  nproc : ℕ
  start : ℕ → ℕ
  /-- `SAME_SIZE_IN_ALL_PROC` -/
  same : Bool
  /-- `nkx_loc`, `nk0_loc` of the calling process (used only if `same`) -/
  loc : ℕ

/-- The loop `while rank_k < nb_proc - 1 and not (start[rank_k] <= i < start[rank_k+1])`
(fluidsim/operators/operators2d.py 420-427); `fuel` bounds the number of iterations. -/
def whileRank (start : ℕ → ℕ) (nproc : ℕ) (i : ℤ) : ℕ → ℕ → ℕ
  | 0, r => r
  | fuel + 1, r =>
    if r < nproc - 1 ∧ ¬ ((start r : ℤ) ≤ i ∧ i < start (r + 1)) then
      whileRank start nproc i fuel (r + 1)
    else r

/-- `where_is_wavenumber` (operators2d.py 401-442): rank and local indices (ik0, ik1).
`nkx` = `nkx_seq`, `nkyLoc` = `nky_loc`. -/
def whereIs2d {K : Type*} [Field K] [LinearOrder K] [FloorRing K]
    (deltakx deltaky : K) (nkx nkyLoc : ℕ) (sequential transposed : Bool) (s : Slabs)
    (kx ky : K) : Except String (ℤ × ℤ × ℤ) :=
  let ikx := roundEven (kx / deltakx)
  if (nkx : ℤ) ≤ ikx then .error "ValueError"
  else
    let place : Except String (ℤ × ℤ) :=
      if sequential then .ok (0, ikx)
      else if s.same then
        let r := ikx / (s.loc : ℤ)
        if (s.loc * s.nproc : ℕ) ≤ ikx then .error "ValueError"
        else .ok (r, ikx - s.start r.toNat)
      else
        let r := whileRank s.start s.nproc ikx s.nproc 0
        .ok ((r : ℤ), ikx - s.start r)
    match place with
    | .error e => .error e
    | .ok (r, ikxLoc) =>
      let iky := roundEven (ky / deltaky)
      let ikyLoc := if iky < 0 then nkyLoc + iky else iky
      if transposed then .ok (r, ikxLoc, ikyLoc) else .ok (r, ikyLoc, ikxLoc)

/-- The loop `for rank_k, start in enumerate(starts): if ik0 < start: rank_k -= 1; break`
(operators3d.py 671-674), from rank `r` on, `left` ranks remaining. -/
def forRank (start : ℕ → ℕ) (i : ℕ) : ℕ → ℕ → ℕ
  | 0, r => r - 1
  | left + 1, r => if i < start r then r - 1 else forRank start i left (r + 1)

/-- The slab case of `where_is_wavenumber` in 3D (operators3d.py 667-677): rank and local
index of `ik0` (the two other indices are returned unchanged). -/
def whereSlab (s : Slabs) (ik0 : ℕ) : ℕ × ℤ :=
  let r := if s.same then ik0 / s.loc else forRank s.start ik0 s.nproc 0
  (r, (ik0 : ℤ) - s.start r)

/-- The block of a process: first global indices (`seq_indices_first_K`) and local shape
(`shapeK_loc`). -/
structure Block where
  first : ℕ × ℕ × ℕ
  shape : ℕ × ℕ × ℕ
  deriving DecidableEq

/-- `rank_k_equal_rank` (operators3d.py 680-684). -/
def Block.mem (b : Block) (i : ℕ × ℕ × ℕ) : Bool :=
  decide (b.first.1 ≤ i.1 ∧ i.1 < b.first.1 + b.shape.1) &&
  decide (b.first.2.1 ≤ i.2.1 ∧ i.2.1 < b.first.2.1 + b.shape.2.1) &&
  decide (b.first.2.2 ≤ i.2.2 ∧ i.2.2 < b.first.2.2 + b.shape.2.2)

/-- The general case of `where_is_wavenumber` in 3D (operators3d.py 678-710): the flags of all
processes are gathered, the first process holding the indices broadcasts its local indices. -/
def whereBlock (blocks : List Block) (i : ℕ × ℕ × ℕ) : Except String (ℕ × ℤ × ℤ × ℤ) :=
  let r := blocks.findIdx fun b => b.mem i
  match blocks[r]? with
  | none => .error "ValueError"
  | some b => .ok (r, (i.1 : ℤ) - b.first.1, (i.2.1 : ℤ) - b.first.2.1,
      (i.2.2 : ℤ) - b.first.2.2)

/-- `where_is_wavenumber` in 3D (operators3d.py 654-710): `blocks` are the blocks of the
processes, `me` the block of the calling process, `seq` is `shapeK_seq`. The cache
(662-665, 709) only remembers results of the same function. -/
def whereIs3d (blocks : List Block) (me : Block) (seq : ℕ × ℕ × ℕ) (same : Bool)
    (i : ℕ × ℕ × ℕ) : Except String (ℕ × ℤ × ℤ × ℤ) :=
  if blocks.length = 1 then .ok (0, (i.1 : ℤ), (i.2.1 : ℤ), (i.2.2 : ℤ))
  else if me.shape.2.1 = seq.2.1 then
    let q := whereSlab ⟨blocks.length, fun r => ((blocks[r]?).map fun b => b.first.1).getD 0,
      same, me.shape.1⟩ i.1
    .ok (q.1, q.2, (i.2.1 : ℤ), (i.2.2 : ℤ))
  else whereBlock blocks i

end Verif.Modes
