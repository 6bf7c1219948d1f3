import Verif.Series.Model

/-! Specification vocabulary for C16. -/

namespace Verif.Series

variable {T V : Type*}

/-- What a reader sees in the dataset `k` (h5py's `file[k]`). -/
def File.get (f : File T V) (k : Key) : Option (List V) :=
  (f.dsets.find? fun e => e.1 = k).map Prod.snd

/-- The value of a key in a dictionary. -/
def dictVal (d : Dict V) (k : Key) : Option V := (d.find? fun e => e.1 = k).map Prod.snd

/-- The records whose saving was completed, in order. -/
def completed : List (Ev T V) → List (T × Dict V)
  | [] => []
  | .start t d :: h => (t, d) :: completed h
  | .save t d :: h => (t, d) :: completed h
  | .crash _ _ _ :: h => completed h

/-- All dictionaries of a history have the same keys, without repetition (the output object
computes the same quantities at each time), and the first event creates the file. -/
def SameKeys (keys : List Key) (h : List (Ev T V)) : Prop :=
  keys.Nodup ∧ ∀ e ∈ h, match e with
    | .start _ d => d.map Prod.fst = keys
    | .save _ d => d.map Prod.fst = keys
    | .crash _ _ d => d.map Prod.fst = keys

/-- No crash in the history. -/
def NoCrash (h : List (Ev T V)) : Prop := ∀ e ∈ h, ∀ m t d, e ≠ .crash m t d

/-- The file holds exactly the records `recs`: record `i` of every dataset is the value
computed at `times[i]`. -/
def Holds (keys : List Key) (f : File T V) (recs : List (T × Dict V)) : Prop :=
  f.times = recs.map Prod.fst ∧
  ∀ k ∈ keys, ∃ l, f.get k = some l ∧ l.map some = recs.map fun r => dictVal r.2 k

/-- The file holds the records `recs` in this order, each one aligned (same index in `times`
and in every dataset), possibly with unfinished records (`none` in `slots`) between them. -/
def HoldsAmong (keys : List Key) (f : File T V) (recs : List (T × Dict V)) : Prop :=
  ∃ slots : List (Option (T × Dict V)),
    slots.filterMap id = recs ∧ f.times.length = slots.length ∧
    ∀ (i : ℕ) (t : T) (d : Dict V), slots[i]? = some (some (t, d)) →
      f.times[i]? = some t ∧
      ∀ k ∈ keys, ∃ l, f.get k = some l ∧ l[i]? = dictVal d k ∧ l.length ≤ slots.length

end Verif.Series

namespace Verif.Series

variable {T V : Type*}

/-- The records saved by calls of `_online_save` (not at construction). -/
def savedOnly : List (Ev T V) → List (T × Dict V)
  | [] => []
  | .save t d :: h => (t, d) :: savedOnly h
  | _ :: h => savedOnly h

/-- What a reader obtains by joining the files of the probes in order. -/
def joinedTimes (files : List (String × File T V)) : List T := files.flatMap fun e => e.2.times

/-- The joined series of one dataset. -/
def joinedData (files : List (String × File T V)) (k : Key) : List V :=
  files.flatMap fun e => (e.2.get k).getD []

end Verif.Series
