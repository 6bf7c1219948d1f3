import Verif.Modes.Model

/-!
# Coarse arrays put into and taken from full spectral arrays (C26)

An assignment of the loops is a pair (index in the full array, index in the coarse array). In
a distributed array the position is (rank, local indices); the full array of all processes is
one function of the position.
-/

namespace Verif.Coarse
open Verif.Modes

/-- Multi-index as integers. -/
def toZ (s : ℕ × ℕ × ℕ) : ℤ × ℤ × ℤ := ((s.1 : ℤ), (s.2.1 : ℤ), (s.2.2 : ℤ))

/-- The indices of three nested `for ... in range(...)`. -/
def range3 (n : ℕ × ℕ × ℕ) : List (ℕ × ℕ × ℕ) :=
  (List.range n.1).flatMap fun (a : ℕ) => (List.range n.2.1).flatMap fun (b : ℕ) =>
    (List.range n.2.2).map fun (c : ℕ) => (a, b, c)

/-- The indices of two nested `for ... in range(...)`. -/
def range2 (n : ℕ × ℕ) : List (ℕ × ℕ) :=
  (List.range n.1).flatMap fun (a : ℕ) => (List.range n.2).map fun (b : ℕ) => (a, b)

/-- `_ik_from_ikc` (fluidsim/operators/operators3d.py 1183-1193); the same test and formulas
are inlined in operators2d.py 273-277, 296-300, 581-585, 597-601. `ikc <= nkc / 2.0` is
`2 ikc ≤ nkc`. -/
def ikFromIkc (ikc nkc nk : ℕ) (isX : Bool := false) : ℤ :=
  if 2 * ikc ≤ nkc ∨ isX then (ikc : ℤ) else ((ikc : ℤ) - nkc) + nk

/-! ### One process, 3D -/

/-- The loops of the sequential branches (operators3d.py 370-378 and 531-540). -/
def loops3 (nC nF : ℕ × ℕ × ℕ) : List ((ℤ × ℤ × ℤ) × (ℤ × ℤ × ℤ)) :=
  (range3 nC).map fun s =>
    ((ikFromIkc s.1 nC.1 nF.1, ikFromIkc s.2.1 nC.2.1 nF.2.1, (s.2.2 : ℤ)), toZ s)

/-- `put_coarse_array_in_array_fft` (operators3d.py 370-378). -/
def put3 {A : Type*} (nC nF : ℕ × ℕ × ℕ) (coarse arr : ℕ × ℕ × ℕ → A) :
    Except String (ℕ × ℕ × ℕ → A) :=
  assign (pyIdx3 nF) (pyIdx3 nC) coarse (loops3 nC nF) arr

/-- `coarse_seq_from_fft_loc` (operators3d.py 531-540); `empty` is the content of `np.empty`. -/
def take3 {A : Type*} (nC nF : ℕ × ℕ × ℕ) (arr empty : ℕ × ℕ × ℕ → A) :
    Except String (ℕ × ℕ × ℕ → A) :=
  assign (pyIdx3 nC) (pyIdx3 nF) arr ((loops3 nC nF).map Prod.swap) empty

/-! ### One process, 2D -/

/-- The loops of the sequential branches in 2D (operators2d.py 269-281 and 596-604). -/
def loops2 (nC nF : ℕ × ℕ) : List ((ℤ × ℤ) × (ℤ × ℤ)) :=
  (range2 nC).map fun s => ((ikFromIkc s.1 nC.1 nF.1, (s.2 : ℤ)), ((s.1 : ℤ), (s.2 : ℤ)))

/-- `np.allclose(0.0, x)` for `x ≥ 0`: `|0 - x| <= 1e-8 + 1e-5 |x|`. -/
def allclose0 {K : Type*} [Field K] [LinearOrder K] (x : K) : Bool :=
  decide (x ≤ 1 / 10 ^ 8 + 1 / 10 ^ 5 * x)

/-- `put_coarse_array_in_array_fft` in 2D, one process (operators2d.py 587-604). `mod` is
`abs`; the maximum of a row is close to zero iff all its elements are. -/
def put2 {A K : Type*} [Field K] [LinearOrder K] (mod : A → K) (nC nF : ℕ × ℕ)
    (coarse arr : ℕ × ℕ → A) : Except String (ℕ × ℕ → A) :=
  if ¬ (List.range nC.2).all fun j => allclose0 (mod (coarse (nC.1 / 2, j))) then
    .error "ValueError"
  else if ¬ (List.range nC.1).all fun i => allclose0 (mod (coarse (i, nC.2 - 1))) then
    .error "ValueError"
  else assign (pyIdx2 nF) (pyIdx2 nC) coarse (loops2 nC nF) arr

/-- `coarse_seq_from_fft_loc` in 2D, one process (operators2d.py 269-281). -/
def take2 {A : Type*} (nC nF : ℕ × ℕ) (arr empty : ℕ × ℕ → A) : Except String (ℕ × ℕ → A) :=
  assign (pyIdx2 nC) (pyIdx2 nF) arr ((loops2 nC nF).map Prod.swap) empty

/-! ### Several processes, 2D -/

/-- The position (rank, local indices) of the mode of x index `ikx` and y index `iky` in the
transposed arrays: `where_is_wavenumber(deltakx * ikx, 0.0)` then `arr[ikxloc, iky]` on that
process (operators2d.py 290-301 and 559-586). `sizes r` is the number of local x modes. -/
def pos2 {K : Type*} [Field K] [LinearOrder K] [FloorRing K] (δx δy : K) (nkx nky : ℕ)
    (s : Slabs) (sizes : ℕ → ℕ) (g : ℤ × ℤ) : Option (ℕ × ℕ × ℕ) :=
  match whereIs2d δx δy nkx nky false true s (δx * g.1) 0 with
  | .error _ => none
  | .ok (r, i0, _) => (pyIdx2 (sizes r.toNat, nky) (i0, g.2)).map fun i => (r.toNat, i.1, i.2)

/-- The loops over the columns of the coarse array (stored y, x) and over its rows
(operators2d.py 559-586). -/
def loops2mpi (nC : ℕ × ℕ) (nky : ℕ) : List ((ℤ × ℤ) × (ℤ × ℤ)) :=
  (range2 (nC.2, nC.1)).map fun s =>
    (((s.1 : ℤ), ikFromIkc s.2 nC.1 nky), ((s.2 : ℤ), (s.1 : ℤ)))

/-- `put_coarse_array_in_array_fft` in 2D on several processes (operators2d.py 550-586); the
messages transfer the column unchanged. Errors of the lookup are not distinguished. -/
def put2mpi {A K : Type*} [Field K] [LinearOrder K] [FloorRing K] (transposed : Bool)
    (δx δy : K) (nkx nky : ℕ) (s : Slabs) (sizes : ℕ → ℕ) (nC : ℕ × ℕ) (coarse : ℕ × ℕ → A)
    (arr : ℕ × ℕ × ℕ → A) : Except String (ℕ × ℕ × ℕ → A) :=
  if ¬ transposed then .error "NotImplementedError"
  else assign (pos2 δx δy nkx nky s sizes) (pyIdx2 nC) coarse (loops2mpi nC nky) arr

/-- `coarse_seq_from_fft_loc` in 2D on several processes (operators2d.py 283-319). -/
def take2mpi {A K : Type*} [Field K] [LinearOrder K] [FloorRing K] (transposed : Bool)
    (δx δy : K) (nkx nky : ℕ) (s : Slabs) (sizes : ℕ → ℕ) (nC : ℕ × ℕ) (arr : ℕ × ℕ × ℕ → A)
    (empty : ℕ × ℕ → A) : Except String (ℕ × ℕ → A) :=
  if ¬ transposed then .error "NotImplementedError"
  else assign (pyIdx2 nC) (pos2 δx δy nkx nky s sizes) arr
    ((loops2mpi nC nky).map Prod.swap) empty

/-! ### Several processes, 3D -/

/-- `fck_fft` (operators3d.py 384-416): the coarse array in storage order, as a function of
the coarse array (z, y, x). -/
def toStorage {A : Type*} (d : DimXK) (coarse : ℕ × ℕ × ℕ → A) :
    Except String (ℕ × ℕ × ℕ → A) :=
  if d = (1, 0, 2) then .ok fun s => coarse (s.2.1, s.1, s.2.2)
  else if d = (2, 1, 0) then .ok fun s => coarse (s.2.2, s.2.1, s.1)
  else if d = (0, 1, 2) then .ok fun s => coarse (s.1, s.2.1, s.2.2)
  else if d = (1, 2, 0) then .ok fun s => coarse (s.2.2, s.1, s.2.1)
  else .error "NotImplementedError"

/-- The final transposition of `coarse_seq_from_fft_loc` (operators3d.py 630-652). -/
def fromStorage {A : Type*} (d : DimXK) (fck : ℕ × ℕ × ℕ → A) :
    Except String (ℕ × ℕ × ℕ → A) :=
  if d = (1, 0, 2) then .ok fun s => fck (s.2.1, s.1, s.2.2)
  else if d = (2, 1, 0) then .ok fun s => fck (s.2.2, s.2.1, s.1)
  else if d = (0, 1, 2) then .ok fun s => fck (s.1, s.2.1, s.2.2)
  else if d = (1, 2, 0) then .ok fun s => fck (s.2.1, s.2.2, s.1)
  else .error "NotImplementedError"

/-- `nk0c, nk1c, nk2c` (operators3d.py 384-416 and 546-556) from `(nkzc, nkyc, nkxc)`. -/
def shapeStorage (d : DimXK) (n : ℕ × ℕ × ℕ) : Except String (ℕ × ℕ × ℕ) :=
  if d = (1, 0, 2) then .ok (n.2.1, n.1, n.2.2)
  else if d = (2, 1, 0) then .ok (n.2.2, n.2.1, n.1)
  else if d = (0, 1, 2) then .ok (n.1, n.2.1, n.2.2)
  else if d = (1, 2, 0) then .ok (n.2.1, n.2.2, n.1)
  else .error "NotImplementedError"

/-- The distribution: blocks of the processes, `shapeK_seq`, `SAME_SIZE_IN_ALL_PROC`, and the
shape used by the tests (that of the calling process: `blocks` have all a complete axis 1, or
none). -/
structure Dist where
  blocks : List Block
  me : Block
  seq : ℕ × ℕ × ℕ
  same : Bool

/-- The position of the global index `g`: `where_is_wavenumber` is called with `probe g` and
the local indices it returns are kept for the axes selected by `keep`, the other indices being
used as they are (operators3d.py 427-457, 467-494, 510-525). -/
def pos3 (D : Dist) (probe : ℕ × ℕ × ℕ → ℕ × ℕ × ℕ) (keep1 keep2 : Bool) (g : ℤ × ℤ × ℤ) :
    Option (ℕ × ℕ × ℕ × ℕ) :=
  if g.1 < 0 ∨ g.2.1 < 0 ∨ g.2.2 < 0 then none
  else
    match whereIs3d D.blocks D.me D.seq D.same (probe (g.1.toNat, g.2.1.toNat, g.2.2.toNat)) with
    | .error _ => none
    | .ok (r, a, b, c) =>
      match D.blocks[r]? with
      | none => none
      | some B => (pyIdx3 B.shape (a, if keep1 then b else g.2.1, if keep2 then c else g.2.2)).map
          fun i => (r, i)

/-- `arr[:t]` on an axis of length `n`: the selected indices (`t ≥ 0`). -/
def sliceTo (n t : ℕ) : List ℕ := List.range' 0 (min t n)

/-- `arr[t:]` on an axis of length `n`. -/
def sliceFrom (n : ℕ) (t : ℤ) : List ℕ :=
  let a := (if 0 ≤ t then t else n + t).toNat
  List.range' a (n - a)

/-- Assignment of a 1D slice: same lengths, or a source of length one (broadcast). -/
def zipSlices (d s : List ℕ) : Except String (List (ℕ × ℕ)) :=
  if d.length = s.length then .ok (d.zip s)
  else match s with
    | [x] => .ok (d.map fun i => (i, x))
    | _ => .error "ValueError"

/-- The assignments of a line in the pencil branch (operators3d.py 487-494): (index in the
line of the full array, index in the coarse line). `isX`: the line is along x. -/
def lineWrites (isX : Bool) (nc n : ℕ) : Except String (List (ℕ × ℕ)) :=
  if isX then zipSlices (sliceTo n nc) (List.range' 0 nc)
  else
    let t1 := nc / 2 + 1
    let t2 := (-(nc : ℤ)) / 2 + 1
    match zipSlices (sliceTo n t1) (sliceTo nc t1),
      zipSlices (sliceFrom n t2) (sliceFrom nc t2) with
    | .ok a, .ok b => .ok (a ++ b)
    | .error e, _ => .error e
    | _, .error e => .error e

/-- `position_x_K` (operators3d.py 380-382): is storage axis `j` the x axis? -/
def isX (d : DimXK) (j : ℕ) : Bool :=
  if d.1 = 2 then j = 0 else if d.2.1 = 2 then j = 1 else j = 2

/-- `put_coarse_array_in_array_fft` on several processes (operators3d.py 380-525). `nC` is
`shapeK_coarse`. -/
def put3mpi {A : Type*} (D : Dist) (d : DimXK) (nC : ℕ × ℕ × ℕ) (coarse : ℕ × ℕ × ℕ → A)
    (arr : ℕ × ℕ × ℕ × ℕ → A) : Except String (ℕ × ℕ × ℕ × ℕ → A) :=
  match toStorage d coarse, shapeStorage d nC with
  | .ok fck, .ok c =>
    let f0 (i : ℕ) := ikFromIkc i c.1 D.seq.1 (isX d 0)
    if D.me.shape.2.1 = D.seq.2.1 then
      let pos := pos3 D (fun g => (g.1, 0, 0)) false false
      if d = (1, 0, 2) then
        assign pos (pyIdx3 c) fck
          ((range3 (min c.1 D.seq.1, c.2.1, c.2.2)).map fun s =>
            ((f0 s.1, ikFromIkc s.2.1 c.2.1 D.seq.2.1, (s.2.2 : ℤ)), toZ s)) arr
      else if d = (2, 1, 0) then
        assign pos (pyIdx3 c) fck
          ((range3 (min c.1 D.seq.1, c.2.1, c.2.2)).map fun s =>
            ((f0 s.1, ikFromIkc s.2.1 c.2.1 D.seq.2.1, ikFromIkc s.2.2 c.2.2 D.seq.2.2),
              toZ s)) arr
      else .error "NotImplementedError"
    else
      let f1 (i : ℕ) := ikFromIkc i c.2.1 D.seq.2.1 (isX d 1)
      if D.me.shape.2.2 = D.seq.2.2 then
        match lineWrites (isX d 2) c.2.2 D.seq.2.2 with
        | .error e => .error e
        | .ok l =>
          assign (pos3 D (fun g => (g.1, g.2.1, 0)) true false) (pyIdx3 c) fck
            ((range2 (min c.1 D.seq.1, min c.2.1 D.seq.2.1)).flatMap fun s =>
              l.map fun q => ((f0 s.1, f1 s.2, (q.1 : ℤ)), toZ (s.1, s.2, q.2))) arr
      else if d = (0, 1, 2) then
        assign (pos3 D id true true) (pyIdx3 c) fck
          ((range3 (min c.1 D.seq.1, min c.2.1 D.seq.2.1, min c.2.2 D.seq.2.2)).map fun s =>
            ((f0 s.1, f1 s.2.1, ikFromIkc s.2.2 c.2.2 D.seq.2.2 (isX d 2)), toZ s)) arr
      else .error "NotImplementedError"
  | .error e, _ => .error e
  | _, .error e => .error e

/-- `coarse_seq_from_fft_loc` on several processes (operators3d.py 542-652): the result on
process 0; `fc_fft_tmp` is zero at first. -/
def take3mpi {A : Type*} [Zero A] (D : Dist) (d : DimXK) (nC : ℕ × ℕ × ℕ)
    (arr : ℕ × ℕ × ℕ × ℕ → A) : Except String (ℕ × ℕ × ℕ → A) :=
  match shapeStorage d nC with
  | .error e => .error e
  | .ok c =>
    let f0 (i : ℕ) := ikFromIkc i c.1 D.seq.1 (isX d 0)
    let tmp :=
      if D.me.shape.2.1 = D.seq.2.1 then
        let pos := pos3 D (fun g => (g.1, 0, 0)) false false
        assign (pyIdx3 c) pos arr
          ((range3 (min c.1 D.seq.1, c.2.1, c.2.2)).map fun s =>
            (toZ s, (f0 s.1, ikFromIkc s.2.1 c.2.1 D.seq.2.1,
              if d = (1, 0, 2) then (s.2.2 : ℤ) else ikFromIkc s.2.2 c.2.2 D.seq.2.2)))
          (fun _ => 0)
      else
        assign (pyIdx3 c) (pos3 D id true true) arr
          ((range3 (min c.1 D.seq.1, min c.2.1 D.seq.2.1, min c.2.2 D.seq.2.2)).map fun s =>
            (toZ s, (f0 s.1, ikFromIkc s.2.1 c.2.1 D.seq.2.1 (isX d 1),
              ikFromIkc s.2.2 c.2.2 D.seq.2.2 (isX d 2)))) (fun _ => 0)
    match tmp with
    | .error e => .error e
    | .ok t => fromStorage d t

end Verif.Coarse
