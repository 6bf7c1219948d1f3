import Verif.VarCache.Lemmas

/-! # C12: the variables returned by `get_var` and `compute` -/

namespace Verif.VarCache

variable {St V : Type}

/-- invariant of histories: the cache is fresh unless a write came after a read -/
theorem run_inv (sys : Sys St V) (st : St) (it : Nat) (ops : List (Op St))
    (hr : ∀ op ∈ ops, op.raises) :
    let o := run sys (init st it) ops
    let m := ops.foldl Mon.next (⟨false, false⟩ : Mon)
    Past o ∧ (m.dirty = false → Fresh sys o) ∧ (m.read = false → ∀ k, o.cached k = none) := by
  have gen : ∀ (ops : List (Op St)), (∀ op ∈ ops, op.raises) → ∀ (o : Obj St V) (m : Mon),
      Past o → (m.dirty = false → Fresh sys o) → (m.read = false → ∀ k, o.cached k = none) →
      Past (run sys o ops) ∧ ((ops.foldl Mon.next m).dirty = false → Fresh sys (run sys o ops)) ∧
      ((ops.foldl Mon.next m).read = false → ∀ k, (run sys o ops).cached k = none) := by
    intro ops
    induction ops with
    | nil => intro _ o m h1 h2 h3; exact ⟨h1, h2, h3⟩
    | cons op ops ih =>
      intro hr o m h1 h2 h3
      simp only [run, List.foldl_cons]
      have hr' : ∀ op ∈ ops, op.raises := fun op h => hr op (by simp [h])
      cases op with
      | step f =>
        have hnone : ∀ k, (apply sys o (.step f)).cached k = none := by
          intro k
          have hne : o.itc k ≠ some (o.it + 1) := by
            intro hc
            have := h1 k _ hc
            omega
          show Obj.cached { o with st := f o.st, it := o.it + 1 } k = none
          unfold Obj.cached
          cases hv : o.vars k with
          | none => rfl
          | some v => simp [hne]
        refine ih hr' _ _ ?_ ?_ ?_
        · intro k i hi
          have := h1 k i hi
          simp only [apply]; omega
        · intro _ k v hc; rw [hnone] at hc; cases hc
        · intro _; exact hnone
      | write f =>
        refine ih hr' _ _ h1 ?_ ?_
        · intro hd k v hc
          simp only [Mon.next, Bool.or_eq_false_iff] at hd
          have := h3 hd.2 k
          simp only [apply] at hc
          have hcc : o.cached k = some v := hc
          rw [this] at hcc; cases hcc
        · intro hd; exact h3 hd
      | clear =>
        have hnone : ∀ k, (apply sys o .clear).cached k = none := by
          intro k; simp [apply, Obj.cached]
        refine ih hr' _ _ h1 ?_ ?_
        · intro _ k v hc; rw [hnone] at hc; cases hc
        · intro _; exact hnone
      | read a k n save raise =>
        have hraise : raise = true := hr (.read a k n save raise) (by simp)
        subst hraise
        refine ih hr' _ _ ?_ ?_ ?_
        · -- `Past` does not need freshness
          have hp : ∀ (n : Nat) (o : Obj St V) (a : Access) (k : String) (save raise : Bool),
              Past o → Past (call sys n o a k save raise).1 := by
            intro n
            induction n with
            | zero => intro o a k s r h; exact h
            | succ n ihn =>
              have hsubs : ∀ (subs : List (Access × String)) (o : Obj St V), Past o →
                  Past (subsLoop (fun o a k' => call sys n o a k' true true) o subs).1 := by
                intro subs
                induction subs with
                | nil => intro o h; exact h
                | cons p subs ihs =>
                  intro o h
                  obtain ⟨a, k⟩ := p
                  unfold subsLoop
                  have h1 := ihn o a k true true h
                  cases hr : call sys n o a k true true with
                  | mk o1 r =>
                    rw [hr] at h1
                    cases r with
                    | fuel => exact h1
                    | valueError => exact h1
                    | ok v =>
                      simp only
                      have h2 := ihs o1 h1
                      cases hr2 : subsLoop (fun o a k' => call sys n o a k' true true) o1 subs with
                      | mk o2 r2 =>
                        rw [hr2] at h2
                        cases r2 <;> exact h2
              intro o a k s r h
              cases a with
              | getVar =>
                simp only [call]
                cases sys.stored k with
                | some f => exact h
                | none =>
                  simp only
                  cases o.cached k with
                  | some v => exact h
                  | none =>
                    have h1 := ihn o .compute k true true h
                    cases hr : call sys n o .compute k true true with
                    | mk o1 r =>
                      rw [hr] at h1
                      cases r with
                      | fuel => exact h1
                      | valueError => exact h1
                      | ok v => exact save_past h1 _ _
              | compute =>
                simp only [call]
                cases o.cached k with
                | some v => exact h
                | none =>
                  simp only
                  cases sys.formula k with
                  | none =>
                    cases r <;> cases s <;> first | exact h | exact save_past h _ _
                  | some p =>
                    obtain ⟨subs, f⟩ := p
                    simp only
                    have h1 := hsubs subs o h
                    cases hr : subsLoop (fun o a k' => call sys n o a k' true true) o subs with
                    | mk o1 r =>
                      rw [hr] at h1
                      cases r with
                      | inl _ => exact h1
                      | inr vs => cases s <;> first | exact h1 | exact save_past h1 _ _
          exact hp n o a k save true h1
        · intro hd
          exact (call_good sys n o a k save (h2 hd)).2.2.1
        · intro hd; simp [Mon.next] at hd
  exact gen ops hr (init st it) ⟨false, false⟩ (by intro k i h; simp [init] at h)
    (by intro _ k v h; simp [init, Obj.cached] at h) (by intro _ k; simp [init, Obj.cached])

/-- **C12** For every solver (stored variables, formulas), every history of steps, reads,
clears and writes in which no write came after a read of the same iteration: `get_var(key)` and
`compute(key)` return the value of the variable computed from scratch from the present arrays,
and raise `ValueError` only if the computation from scratch does. -/
theorem C12_reads_are_current (sys : Sys St V) (st : St) (it : Nat) (ops : List (Op St))
    (hr : ∀ op ∈ ops, op.raises) (hclean : clean ops) (a : Access) (k : String) (fuel : Nat)
    (save : Bool) :
    let o := run sys (init st it) ops
    let r := call sys fuel o a k save true
    (∀ v, r.2 = .ok v → IsValue sys o.st a k v) ∧
    (r.2 = .valueError → ∃ n, eval sys o.st n a k = .valueError) := by
  have h := run_inv sys st it ops hr
  have hg := call_good sys fuel (run sys (init st it) ops) a k save (h.2.1 hclean)
  exact ⟨hg.2.2.2.2.1, hg.2.2.2.2.2⟩

/-- **C12** A step or `clear_computed()` is always enough: whatever happened before (including
writes after reads). -/
theorem C12_step_or_clear_refreshes (sys : Sys St V) (st : St) (it : Nat) (ops : List (Op St))
    (hr : ∀ op ∈ ops, op.raises) (op : Op St)
    (hop : op = .clear ∨ ∃ f, op = .step f) (a : Access) (k : String) (fuel : Nat) (save : Bool) :
    let o := run sys (init st it) (ops ++ [op])
    ∀ v, (call sys fuel o a k save true).2 = .ok v → IsValue sys o.st a k v := by
  have hc : clean (ops ++ [op]) := by
    unfold clean
    rw [List.foldl_append]
    rcases hop with rfl | ⟨f, rfl⟩ <;> rfl
  exact (C12_reads_are_current sys st it (ops ++ [op]) (by
    intro op' h
    rcases List.mem_append.1 h with h | h
    · exact hr op' h
    · simp only [List.mem_singleton] at h
      subst h
      rcases hop with rfl | ⟨f, rfl⟩ <;> trivial) hc a k fuel save).1

/-- **C12** The value of a variable is unique (so the two previous theorems determine it). -/
theorem C12_value_unique (sys : Sys St V) (st : St) (a : Access) (k : String) (v w : V)
    (hv : IsValue sys st a k v) (hw : IsValue sys st a k w) : v = w := by
  obtain ⟨n, hn⟩ := hv
  obtain ⟨m, hm⟩ := hw
  have h1 := eval_mono_le sys st (Nat.le_max_left n m) a k (by rw [hn]; simp)
  have h2 := eval_mono_le sys st (Nat.le_max_right n m) a k (by rw [hm]; simp)
  rw [h1, hn] at h2
  rw [hm] at h2
  cases h2; rfl

/-- **C12** Within one iteration a repeated call returns the same array, whatever is read or
written between the two calls. -/
theorem C12_same_within_iteration (sys : Sys St V) (o : Obj St V) (a : Access) (k : String)
    (n : Nat) (raise : Bool) (hst : sys.stored k = none) (v : V)
    (hread : (call sys n o a k true raise).2 = .ok v) (ops : List (Op St))
    (hops : ∀ op ∈ ops, (∃ f, op = .write f) ∨ ∃ a k n s r, op = .read a k n s r)
    (a' : Access) (m : Nat) (save' raise' : Bool) :
    (call sys (m + 1) (run sys (call sys n o a k true raise).1 ops) a' k save' raise').2
      = .ok v := by
  have hc := call_caches sys n o a k raise (fun _ => hst) v hread
  have hrun : ∀ (ops : List (Op St)) (o : Obj St V),
      (∀ op ∈ ops, (∃ f, op = .write f) ∨ ∃ a k n s r, op = .read a k n s r) →
      o.cached k = some v → (run sys o ops).cached k = some v := by
    intro ops
    induction ops with
    | nil => intro o _ h; exact h
    | cons op ops ih =>
      intro o hops h
      refine ih _ (fun op hp => hops op (by simp [hp])) ?_
      rcases hops op (by simp) with ⟨f, rfl⟩ | ⟨a, k', n, s, r, rfl⟩
      · exact h
      · exact (call_persist sys n o a k' s r).2.2 k v h
  have := hrun ops _ hops hc
  cases a' with
  | getVar => simp only [call, hst, this]
  | compute => simp only [call, this]

/-- **C12** An unknown key: `ValueError`, or zeros with `RAISE_ERROR=False` (if it is not in the
cache). -/
theorem C12_unknown_key (sys : Sys St V) (o : Obj St V) (k : String) (n : Nat) (save : Bool)
    (hf : sys.formula k = none) (hc : o.cached k = none) :
    (call sys (n + 1) o .compute k save true).2 = .valueError ∧
    (call sys (n + 1) o .compute k save false).2 = .ok sys.zeros ∧
    (sys.stored k = none → (call sys (n + 2) o .getVar k save true).2 = .valueError) := by
  refine ⟨by simp [call, hc, hf], by simp [call, hc, hf], fun hs => by simp [call, hs, hc, hf]⟩

/-! ## Findings -/

/-- one stored array of integers, and its double -/
def demo : Sys Nat Nat where
  stored := fun k => if k = "rot" then some id else none
  formula := fun k => if k = "twice" then some ([(.getVar, "rot")], fun _ l => 2 * l.sum) else none
  zeros := 0

def resVal : Res Nat → Option Nat
  | .ok v => some v
  | _ => none

/-- **C12** (finding) After a change of the state within an iteration (for example a new
initialisation before the first step), a variable that was already read is returned with its
old value. -/
theorem C12_write_after_read_violated :
    ¬ ∀ (ops : List (Op Nat)) (v : Nat),
      (call demo 3 (run demo (init 1 0) ops) .getVar "twice" true true).2 = .ok v →
      IsValue demo (run demo (init 1 0) ops).st .getVar "twice" v := by
  intro h
  have h1 := h [.read .getVar "twice" 3 true true, .write (fun _ => 5)] 2 (by rfl)
  have h2 : IsValue demo (run demo (init 1 0) [.read .getVar "twice" 3 true true,
      .write (fun _ => 5)]).st .getVar "twice" 10 := ⟨3, by rfl⟩
  exact absurd (C12_value_unique _ _ _ _ _ _ h1 h2) (by decide)

/-- **C12** (finding) The zeros returned for an unknown key with `RAISE_ERROR=False` are stored:
afterwards `get_var` of this unknown key returns them instead of raising `ValueError`. -/
theorem C12_zeros_are_cached_violated :
    ∃ o : Obj Nat Nat, o = run demo (init 1 0) [.read .compute "unknown" 1 true false] ∧
      demo.formula "unknown" = none ∧ demo.stored "unknown" = none ∧
      (call demo 5 o .getVar "unknown" true true).2 = .ok 0 :=
  ⟨_, rfl, by decide, by decide, by rfl⟩

/-- non-vacuity: a history with steps, reads and writes that is clean -/
example : clean ([.write (· + 1), .read .getVar "twice" 3 true true, .step (· + 1),
    .write (· + 7), .read .compute "twice" 3 true true] : List (Op Nat)) := by rfl

example : resVal (call demo 3 (run demo (init 1 0) [.read .getVar "twice" 3 true true,
    .step (· + 4)]) .getVar "twice" true true).2 = some 10 := by rfl

end Verif.VarCache
