import Verif.StateFile.Spec
import Mathlib.Tactic.Common
import Mathlib.Data.List.Perm.Basic
import Mathlib.Data.Int.Notation
import Mathlib.Algebra.Ring.Int.Defs
import Mathlib.Tactic.FinCases
import Mathlib.Data.Fintype.Basic

/-! # C80: theorems on the files of states -/

namespace Verif.StateFile

set_option linter.unusedSectionVars false

variable {G V T : Type*} [DecidableEq G] [DecidableEq T] [Zero V]

theorem gather_scatter (owner : G → ℕ) (a : G → V) : gather owner (scatter owner a) = fun g => some (a g) := by
  funext g; simp [gather, scatter]

theorem gather_has {s : Sim G V T} {k : Str} {a : G → V} (h : Has s k a) :
    gather s.owner (s.arrays k) = fun g => some (a g) := by
  funext g; simp [gather, h _ g]

theorem mapM_save (s : Sim G V T) (read : (G → Option V) → Option (G → V)) (hr : Reads read) (field : Str → G → V)
    (l : List Str) (h : ∀ k ∈ l, Has s k (field k)) :
    l.mapM (fun k => (read (gather s.owner (s.arrays k))).map fun a => (k, a)) = some (l.map fun k => (k, field k)) := by
  induction l with
  | nil => rfl
  | cons k l ih =>
    rw [List.mapM_cons, ih fun k' hk' => h k' (List.mem_cons_of_mem _ hk'), gather_has (h k (by simp)), hr]
    rfl

theorem lookup_map (field : Str → G → V) (l : List Str) (k : Str) (h : k ∈ l) :
    (l.map fun k => (k, field k)).lookup k = some (field k) := by
  induction l with
  | nil => simp at h
  | cons k' l ih =>
    rw [List.map_cons, List.lookup_cons]
    by_cases e : k = k'
    · subst e; simp
    · rw [beq_false_of_ne e]
      exact ih (by simpa [e] using h)

theorem checkAxes_ok {oper fileOper : Str → Option T} {axes : List Str} (h : SameGrid oper fileOper axes)
    (hn : ∀ r ∈ axes, fileOper ('n' :: r) ≠ none) : checkAxes oper fileOper axes = .ok () := by
  induction axes with
  | nil => rfl
  | cons r l ih =>
    obtain ⟨⟨h1, h2⟩, h3⟩ := List.forall_mem_cons.1 h
    obtain ⟨g1, g2⟩ := List.forall_mem_cons.1 hn
    have : checkAxis oper fileOper r = .ok () := by
      unfold checkAxis
      rw [h1, h2]
      cases e : fileOper ('n' :: r) with
      | none => exact absurd e g1
      | some n =>
        simp only [if_true]
        cases fileOper ('L' :: r) with
        | none => rfl
        | some L => simp
    rw [checkAxes, this]
    exact ih h3 g2

/-- C80: round trip. A state saved by a simulation with any distribution of the points over the processes is loaded
by a simulation of the same grid, with any other distribution, with exactly the same fields, time and iteration. -/
theorem C80_round_trip (s s' : Sim G V T) (read : (G → Option V) → Option (G → V)) (hr : Reads read)
    (field : Str → G → V) (hs : ∀ k ∈ s.keys, Has s k (field k)) (needed : List Str) (hk : ∀ k ∈ needed, k ∈ s.keys)
    (hg : SameGrid s'.oper s.oper s.axes) (hn : ∀ r ∈ s.axes, s.oper ('n' :: r) ≠ none) :
    ∃ f s'', save s read = some f ∧ load s' needed f = .ok s'' ∧ (∀ k ∈ needed, Has s'' k (field k)) ∧
      s''.t = s.t ∧ s''.it = s.it ∧ s''.owner = s'.owner := by
  refine ⟨⟨some s.axes, s.oper, s.keys.map fun k => (k, field k), s.t, some s.it⟩, { s' with
      arrays := fun k => if k ∈ needed then
          match (s.keys.map fun k => (k, field k)).lookup k with
          | some a => scatter s'.owner a
          | none => scatter s'.owner fun _ => 0
        else s'.arrays k
      t := s.t
      it := s.it }, by rw [save, mapM_save s read hr field _ hs], ?_, ?_, rfl, rfl, rfl⟩
  · simp only [load, check, checkAxes_ok hg hn]
    rfl
  · intro k hk' r g
    simp only [if_pos hk', lookup_map field _ _ (hk k hk')]
    rfl

/-- C80: the spectral state is recovered. `toPhys` and `toSpect` are the functions of the solver between the spectral
state and the needed variables; if the saved state is the one of the spectral state `S` and the transforms are inverse
of each other on it, the spectral state computed after the loading is `S`. -/
theorem C80_spectral_state {Sp : Type*} (s s' : Sim G V T) (read : (G → Option V) → Option (G → V)) (hr : Reads read)
    (needed : List Str) (toPhys : Sp → Str → G → V) (toSpect : (Str → G → V) → Sp)
    (hdep : ∀ a b : Str → G → V, (∀ k ∈ needed, a k = b k) → toSpect a = toSpect b)
    (S : Sp) (hinv : toSpect (toPhys S) = S) (hs : ∀ k ∈ s.keys, Has s k (toPhys S k))
    (hk : ∀ k ∈ needed, k ∈ s.keys) (hg : SameGrid s'.oper s.oper s.axes) (hn : ∀ r ∈ s.axes, s.oper ('n' :: r) ≠ none) :
    ∃ f s'', save s read = some f ∧ load s' needed f = .ok s'' ∧
      ∀ a : Str → G → V, (∀ k ∈ needed, Has s'' k (a k)) → toSpect a = S := by
  obtain ⟨f, s'', h1, h2, h3, -⟩ := C80_round_trip s s' read hr (toPhys S) hs needed hk hg hn
  refine ⟨f, s'', h1, h2, fun a ha => (hdep a (toPhys S) fun k hk' => funext fun g => ?_).trans hinv⟩
  have e1 := h3 k hk' (s''.owner g) g
  have e2 := ha k hk' (s''.owner g) g
  rw [e1] at e2
  simpa using e2.symm

theorem checkAxes_cases {oper fileOper : Str → Option T} {axes : List Str}
    (hn : ∀ r ∈ axes, fileOper ('n' :: r) ≠ none) (h : ∃ r ∈ axes, oper ('n' :: r) ≠ fileOper ('n' :: r) ∨
      (fileOper ('L' :: r) ≠ none ∧ oper ('L' :: r) ≠ fileOper ('L' :: r))) :
    checkAxes oper fileOper axes = .error .value := by
  induction axes with
  | nil => simp at h
  | cons r l ih =>
    obtain ⟨g1, g2⟩ := List.forall_mem_cons.1 hn
    rw [checkAxes]
    obtain ⟨n, hnr⟩ := Option.ne_none_iff_exists'.1 g1
    by_cases e1 : oper ('n' :: r) = some n
    · cases hL : fileOper ('L' :: r) with
      | none =>
        have : checkAxis oper fileOper r = .ok () := by simp [checkAxis, hnr, e1, hL]
        rw [this]
        refine ih g2 ?_
        obtain ⟨r', hr', h'⟩ := h
        rcases List.mem_cons.1 hr' with rfl | hr'
        · rcases h' with h' | h'
          · exact absurd (e1.trans hnr.symm) h'
          · exact absurd hL h'.1
        · exact ⟨r', hr', h'⟩
      | some L =>
        by_cases e2 : oper ('L' :: r) = some L
        · have : checkAxis oper fileOper r = .ok () := by simp [checkAxis, hnr, e1, hL, e2]
          rw [this]
          refine ih g2 ?_
          obtain ⟨r', hr', h'⟩ := h
          rcases List.mem_cons.1 hr' with rfl | hr'
          · rcases h' with h' | h'
            · exact absurd (e1.trans hnr.symm) h'
            · exact absurd (e2.trans hL.symm) h'.2
          · exact ⟨r', hr', h'⟩
        · have : checkAxis oper fileOper r = .error .value := by simp [checkAxis, hnr, e1, hL, e2]
          rw [this]
    · have : checkAxis oper fileOper r = .error .value := by simp [checkAxis, hnr, e1]
      rw [this]

/-- C80: a file of another grid is refused with ValueError: another number of points or, for the lengths written in
the file, another length, along any axis. -/
theorem C80_other_grid (s : Sim G V T) (needed : List Str) (f : File G V T) (axes : List Str) (ha : f.axes = some axes)
    (hn : ∀ r ∈ axes, f.oper ('n' :: r) ≠ none)
    (h : ∃ r ∈ axes, s.oper ('n' :: r) ≠ f.oper ('n' :: r) ∨
      (f.oper ('L' :: r) ≠ none ∧ s.oper ('L' :: r) ≠ f.oper ('L' :: r))) :
    load s needed f = .error .value := by
  simp only [load, check, ha, checkAxes_cases hn h]

/-- C80, finding: a variable which is not in the file is silently zero. -/
theorem C80_missing_variable_violated (s : Sim G V T) (needed : List Str) (f : File G V T) (k : Str) (hk : k ∈ needed)
    (hf : f.data.lookup k = none) (hc : check s.oper f = .ok ()) :
    ∃ s', load s needed f = .ok s' ∧ Has s' k fun _ => 0 := by
  refine ⟨_, by rw [load, hc], fun r g => ?_⟩
  simp only [if_pos hk, hf]
  rfl

/-- C80, finding: for a file without attribute "axes" only x and y are checked: a file with another length along z is
accepted. -/
theorem C80_legacy_violated : ∃ (s : Sim ℕ ℤ ℕ) (f : File ℕ ℤ ℕ) (s' : Sim ℕ ℤ ℕ),
    s.oper ['L', 'z'] ≠ f.oper ['L', 'z'] ∧ f.axes = none ∧ load s [['b']] f = .ok s' ∧ Has s' ['b'] fun _ => 1 := by
  refine ⟨⟨[['z'], ['y'], ['x']], fun k => if k = ['L', 'z'] then some 2 else some 1, [['b']], fun _ => 0, fun _ _ _ =>
    none, 0, 0⟩, ⟨none, fun _ => some 1, [(['b'], fun _ => 1)], 3, none⟩, _, by decide, rfl, rfl, fun r g => ?_⟩
  rfl

/-- C80: with parallel HDF5, whatever the order in which the processes write, the dataset is the field if the blocks
tile the array. -/
theorem C80_parallel {E : Type*} (blocks : ℕ → Block) (nb n0 n1 : ℕ) (ht : Tiles blocks nb n0 n1)
    (field : ℕ → ℕ → E) (loc : ℕ → ℕ → ℕ → E)
    (hl : ∀ r < nb, ∀ i < (blocks r).s0, ∀ j < (blocks r).s1, loc r i j = field ((blocks r).x0 + i) ((blocks r).y0 + j))
    (order : List ℕ) (ho : order.Perm (List.range nb)) (dset : ℕ → ℕ → E) (i j : ℕ) (hi : i < n0) (hj : j < n1) :
    writeAll blocks loc order dset i j = field i j := by
  obtain ⟨r, hr, hu⟩ := ht i hi j hj
  have hmem : ∀ r' ∈ order, r' < nb := fun r' h => List.mem_range.1 (ho.mem_iff.1 h)
  have key : ∀ (order : List ℕ), (∀ r' ∈ order, r' < nb) → ∀ d : ℕ → ℕ → E, (r ∈ order ∨ d i j = field i j) →
      writeAll blocks loc order d i j = field i j := by
    intro order
    induction order with
    | nil => intro _ d h; simpa [writeAll] using h
    | cons r' l ih =>
      intro hm d h
      obtain ⟨m1, m2⟩ := List.forall_mem_cons.1 hm
      refine ih m2 _ ?_
      by_cases e : r' = r
      · right
        subst e
        obtain ⟨h1, h2, h3, h4⟩ := (hu r' hr).1 rfl
        simp only [writeBlock]
        rw [if_pos ⟨h1, h2, h3, h4⟩, hl r' hr _ (by omega) _ (by omega)]
        congr 1 <;> omega
      · rcases h with h | h
        · left
          rcases List.mem_cons.1 h with rfl | h
          · exact absurd rfl e
          · exact h
        · right
          simp only [writeBlock]
          rw [if_neg fun hc => e ((hu r' m1).2 hc), h]
  exact key order hmem dset (Or.inl (ho.mem_iff.2 (List.mem_range.2 hr)))

/-- The hypotheses are met: two points on two processes, saved and loaded with the other distribution. -/
example : ∃ (s : Sim (Fin 2) ℤ ℕ) (read : (Fin 2 → Option ℤ) → Option (Fin 2 → ℤ)),
    Reads read ∧ (∀ k ∈ s.keys, Has s k fun g => (g : ℤ) + 5) ∧ s.keys = [['b']] ∧ s.owner 0 ≠ s.owner 1 ∧
    SameGrid s.oper s.oper s.axes ∧ ∀ r ∈ s.axes, s.oper ('n' :: r) ≠ none := by
  refine ⟨⟨[['x']], fun _ => some 2, [['b']], fun g => g, fun _ r g => if (g : ℕ) = r then some ((g : ℤ) + 5) else none,
    1, 3⟩, fun a => match a 0, a 1 with | some x, some y => some fun g => if g = 0 then x else y | _, _ => none, ?_, ?_,
    rfl, by decide, fun _ _ => ⟨rfl, rfl⟩, by simp⟩
  · intro a
    simp only [Option.some.injEq]
    funext g
    fin_cases g <;> rfl
  · intro k _ r g; rfl

/-- Four processes which tile an array of shape 4 × 6. -/
example : Tiles (fun r => ⟨2 * (r / 2), 3 * (r % 2), 2, 3⟩) 4 4 6 := by
  intro i hi j hj
  refine ⟨2 * (i / 2) + j / 3, by omega, fun r' hr' => ?_⟩
  simp only
  omega

end Verif.StateFile
