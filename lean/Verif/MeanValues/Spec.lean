import Verif.MeanValues.Model

/-! # C68: specification -/

namespace Verif.MeanValues

open Verif.PhysFiles (Str)

variable {D Q R C : Type}

/-- The texts: two floats have different texts, without underscore, and the texts of the results can be read back. -/
structure Texts (M : Maker D Q R C) : Prop where
  inj : ∀ a b, M.fmt a = M.fmt b → a = b
  under : ∀ a, '_' ∉ M.fmt a
  json : ∀ r txt, M.dumps r = .ok txt → M.loads txt = some r

/-- What a user wants: the result for the files as they are now. -/
def Wanted [Add Q] [Sub Q] (M : Maker D Q R C) (d : D) (x : Args Q C) : Except Err R :=
  match range M d x.tmin x.tmax with
  | .error e => .error e
  | .ok (a, b) => computeAll M d a b x.customize

/-- What an argument `tmin` or `tmax` means, for a simulation from `s` to `l` (`dflt` for `None`). The text of the number has
no letter "t". -/
inductive Means [Add Q] [Sub Q] (pyFloat : Str → Option Q) (s l dflt : Q) : Time Q → Q → Prop where
  | none : Means pyFloat s l dflt .none dflt
  | num (q : Q) : Means pyFloat s l dflt (.num q) q
  | afterStart (w : Str) (x : Q) (hw : 't' ∉ w) (hx : pyFloat w = some x) :
    Means pyFloat s l dflt (.text ("t_start+".toList ++ w)) (s + x)
  | beforeLast (w : Str) (x : Q) (hw : 't' ∉ w) (hx : pyFloat w = some x) :
    Means pyFloat s l dflt (.text ("t_last-".toList ++ w)) (l - x)

/-- The files can only grow (`Ext d d'`): the last time does not decrease and what is computed for a range which
was already over does not change. -/
structure Grows [LE Q] (M : Maker D Q R C) (Ext : D → D → Prop) : Prop where
  last : ∀ d d' l, Ext d d' → M.last d = .ok l → ∃ l', M.last d' = .ok l' ∧ l ≤ l'
  compute : ∀ d d' l a b, Ext d d' → M.last d = .ok l → a ≤ l → b ≤ l → M.compute d' a b = M.compute d a b
  custom : ∀ d d' f r, Ext d d' → M.custom f d' r = M.custom f d r

/-- The histories for which the cache is safe: no call is killed while it writes, the files only grow, every call which
computes something is for a range which is over. -/
def Careful [Add Q] [Sub Q] [LE Q] (M : Maker D Q R C) (Ext : D → D → Prop) : D → List (Ev D Q C) → Prop
  | _, [] => True
  | d, .grow d' :: h => Ext d d' ∧ Careful M Ext d' h
  | d, .call x :: h =>
    (∀ a b, range M d x.tmin x.tmax = .ok (a, b) → ∃ l, M.last d = .ok l ∧ a ≤ l ∧ b ≤ l) ∧ Careful M Ext d h
  | _, .killed _ _ :: _ => False

/-- The files of the simulation after a history. -/
def dataAfter (d : D) : List (Ev D Q C) → D
  | [] => d
  | .grow d' :: h => dataAfter d' h
  | _ :: h => dataAfter d h

/-! ## A simulation which appends the values of one quantity -/

section
variable {K : Type} [Field K] [LinearOrder K]

/-- A file with the lines `(time, value)`, averaged over a range; `customize` multiplies the result. `fmt`, `dumps`, ...
are parameters. -/
def fileMaker (fmt : K → Str) (pyFloat : Str → Option K) (dumps : K → Except Str Str) (loads : Str → Option K)
    (hash : K → Str) : Maker (List (K × K)) K K K where
  start := fun d => match d.head? with
    | none => .error .other
    | some p => .ok p.1
  last := fun d => match d.getLast? with
    | none => .error .other
    | some p => .ok p.1
  compute := fun d a b => match average (d.map Prod.fst) (d.map Prod.snd) a (some b) with
    | none => .error .other
    | some m => .ok m
  custom := fun f _ r => .ok (f * r)
  hash := hash
  dumps := dumps
  loads := loads
  fmt := fmt
  pyFloat := pyFloat

/-- Lines are appended, with times after the last one. -/
def Appended (d d' : List (K × K)) : Prop :=
  ∃ e l, d.getLast? = some l ∧ d' = d ++ e ∧ ∀ q ∈ e, l.1 < q.1

end

end Verif.MeanValues
