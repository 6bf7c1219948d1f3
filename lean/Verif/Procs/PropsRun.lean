import Verif.Procs.LemmasCode

/-!
# C86: the time loop, the saved fields, the readings of process 0 and the races
-/

set_option linter.unusedSectionVars false

namespace Verif.Procs

open Function (update)

variable {n : ℕ} {S : Type} [Inhabited S] {I : S → Prop}

/-- What all processes must share in the time loop. -/
def Agree (a : Fin n → Loc) : Prop :=
  ∀ i j, (a i).t = (a j).t ∧ (a i).dt = (a j).dt ∧ (a i).it = (a j).it ∧ (a i).stop = (a j).stop ∧ (a i).tStop = (a j).tStop

theorem Safe.observe {Post : (Fin n → Env) → Prop} (h : ∀ e, Post e) : Safe Post fun _ : Fin n => observe := by
  refine SafeI.accs _ _ ?_
  intro w _
  exact SafeI.ret _ (h _)

theorem Safe.stepCompute (P : Stepping n) (t dt : ℚ) (it : ℕ) (data : Fin n → List ℚ) :
    Safe (fun _ => True) fun i => stepCompute P i t dt it (data i) := by
  refine (SafeI.loop (S := World) (fun _ (_ : Fin n → List ℚ) => True) (List.range (P.exchanges t it)) _ ?_ data trivial)
  intro done j rest d _ _
  simp only [Bind.bind, Pure.pure]
  refine (SafeI.allgather fun i => .arr (d i)).bind ?_
  rintro _ rfl
  exact SafeI.ret _ trivial

theorem Safe.stepDt (P : Stepping n) (st : Fin n → Loc) (h : Agree st) :
    Safe (fun d => ∀ i j, d i = d j) fun i => stepDt P i (st i) := by
  unfold Verif.Procs.stepDt
  cases P.useCfl with
  | false => exact SafeI.ret _ fun i j => (h i j).2.1
  | true =>
    simp only [if_true, Bind.bind, Pure.pure]
    refine (SafeI.allreduce maxNums fun i => .num (P.tmp i (st i).data)).bind ?_
    rintro _ rfl
    exact SafeI.ret _ fun i j => by rw [(h i j).2.1]

theorem Safe.stepElapsed [NeZero n] (P : Stepping n) (clock : Fin n → ℚ) (st : Fin n → Loc) (h : Agree st) :
    Safe (fun d => ∀ i j, d i = d j) fun i => stepElapsed P i (clock i) (st i) := by
  unfold Verif.Procs.stepElapsed
  cases P.maxElapsed with
  | none => exact SafeI.ret _ fun i j => (h i j).2.2.2.1
  | some m =>
    simp only [Bind.bind, Pure.pure]
    refine (SafeI.bcast 0 fun i => if i = 0 then .num (clock i) else .unit).bind ?_
    rintro _ rfl
    exact SafeI.ret _ fun i j => by rw [(h i j).2.2.2.1, (h i j).2.2.2.2]

theorem Safe.oneTimeStep [NeZero n] (P : Stepping n) (st : Fin n → Loc) (h : Agree st) :
    Safe (fun a => Agree a ∧ ∀ i, (a i).it = (st i).it + 1) fun i => oneTimeStep P i (st i) := by
  unfold Verif.Procs.oneTimeStep
  simp only [Bind.bind, Pure.pure]
  refine (Safe.stepDt P st h).bind ?_
  intro dt hdt
  refine (Safe.observe (Post := fun _ => True) fun _ => trivial).bind ?_
  intro env _
  refine (Safe.stepElapsed P (fun i => (env i).clock) st h).bind ?_
  intro stop hstop
  refine (SafeI.bcast 0 fun i => .bool ((st i).signal || (env i).signal)).bind ?_
  rintro _ rfl
  have hc := Safe.stepCompute P (st 0).t (dt 0) (st 0).it fun i => (st i).data
  have e : (fun i => Verif.Procs.stepCompute P i (st 0).t (dt 0) (st 0).it (st i).data)
      = fun i => Verif.Procs.stepCompute P i (st i).t (dt i) (st i).it (st i).data := by
    funext i
    rw [(h 0 i).1, hdt 0 i, (h 0 i).2.2.1]
  rw [e] at hc
  refine hc.bind ?_
  intro data _
  refine SafeI.ret _ ⟨?_, fun _ => rfl⟩
  intro i j
  exact ⟨by simp only [(h i j).1, hdt i j], hdt i j, by simp only [(h i j).2.2.1], by simp only [hstop i j],
    (h i j).2.2.2.2⟩

theorem Safe.mainLoop [NeZero n] (P : Stepping n) (fuel : ℕ) (st : Fin n → Loc) (h : Agree st) :
    Safe (fun a => Agree a ∧ (∀ i, (a i).it ≤ (st i).it + fuel) ∧
      ((∀ i, P.goesOn (a i) = false) ∨ ∀ i, (a i).it = (st i).it + fuel))
      fun i => mainLoop P i fuel (st i) := by
  induction fuel generalizing st with
  | zero => exact SafeI.ret _ ⟨h, fun _ => le_rfl, .inr fun _ => rfl⟩
  | succ fuel ih =>
    have hg : ∀ i j, P.goesOn (st i) = P.goesOn (st j) := by
      intro i j
      simp only [Stepping.goesOn, (h i j).1, (h i j).2.2.1, (h i j).2.2.2.1]
    simp only [Verif.Procs.mainLoop]
    cases hb : P.goesOn (st 0) with
    | false =>
      have : ∀ i, P.goesOn (st i) = false := fun i => by rw [hg i 0, hb]
      simp only [this, Bool.false_eq_true, if_false]
      exact SafeI.ret _ ⟨h, fun _ => Nat.le_add_right _ _, .inl this⟩
    | true =>
      have : ∀ i, P.goesOn (st i) = true := fun i => by rw [hg i 0, hb]
      simp only [this, if_true]
      refine (Safe.oneTimeStep P st h).bind ?_
      rintro a ⟨ha, hit⟩
      refine (ih a ha).weaken ?_
      rintro b ⟨hb1, hb2, hb3⟩
      refine ⟨hb1, fun i => ?_, hb3.imp id fun h i => ?_⟩
      · have := hb2 i
        rw [hit i] at this
        omega
      · rw [h i, hit i]
        omega

/-- The time loop: whatever the clocks, the signals and the speeds of the processes, and for any number `fuel` of steps, the loop
completes; all processes do the same number of steps, with the same times, time increments and decision to stop; and either
the loop has ended for all of them or they have all done `fuel` steps. -/
theorem C86_time_loop [NeZero n] (P : Stepping n) (fuel : ℕ) (data : Fin n → List ℚ) :
    Completes (fun i => timeLoop P fuel i (data i)) fun a =>
      (∀ i j, (a i).it = (a j).it ∧ (a i).t = (a j).t ∧ (a i).dt = (a j).dt ∧ (a i).stop = (a j).stop) ∧
      (∀ i, (a i).it ≤ fuel) ∧ ((∀ i, P.goesOn (a i) = false) ∨ ∀ i, (a i).it = fuel) := by
  refine Safe.completes ?_
  have hstop : Safe (fun d => ∀ i j, d i = d j) fun i => timeStop P i := by
    unfold timeStop
    cases P.maxElapsed with
    | none => exact SafeI.ret _ fun _ _ => rfl
    | some m =>
      simp only [Bind.bind, Pure.pure]
      refine (Safe.observe (Post := fun _ => True) fun _ => trivial).bind ?_
      intro env _
      refine (SafeI.bcast 0 fun i => if i = 0 then .num (env i).clock else .unit).bind ?_
      rintro _ rfl
      exact SafeI.ret _ fun _ _ => rfl
  refine hstop.bind ?_
  intro tStop ht
  refine (Safe.mainLoop P fuel (fun i => ⟨0, P.dtMax, 0, false, false, tStop i, data i⟩) ?_).weaken ?_
  · intro i j
    exact ⟨rfl, rfl, rfl, rfl, ht i j⟩
  · rintro a ⟨h1, h2, h3⟩
    refine ⟨fun i j => ⟨(h1 i j).2.2.1, (h1 i j).1, (h1 i j).2.1, (h1 i j).2.2.2.1⟩, fun i => ?_, h3.imp id fun h i => ?_⟩
    · simpa using h2 i
    · simpa using h i

/-- With a given number of steps the loop ends for all processes, after this number of steps or with a decision to stop shared by all
of them. -/
theorem C86_time_loop_it [NeZero n] (P : Stepping n) (hP : P.useTEnd = false) (data : Fin n → List ℚ) :
    Completes (fun i => timeLoop P P.itEnd i (data i)) fun a =>
      (∀ i, (a i).stop = true) ∨ ∀ i, (a i).it = P.itEnd := by
  refine (C86_time_loop P P.itEnd data).imp ?_
  rintro a ⟨h1, hle, h2⟩
  rcases h2 with h2 | h2
  · cases hs : (a 0).stop with
    | true => exact .inl fun i => by rw [(h1 i 0).2.2.2, hs]
    | false =>
      refine .inr fun i => le_antisymm (hle i) ?_
      have := h2 i
      simp only [Stepping.goesOn, hP, (h1 i 0).2.2.2, hs] at this
      simpa using this
  · exact .inr h2

example : Completes (fun i : Fin 3 => timeLoop (⟨false, 0, 5, true, 1, 1 / 10, some 60, fun i _ => i.val, fun _ it => it + 2,
    fun _ _ dt l => [dt, l.length]⟩ : Stepping 3) 5 i [1]) fun a => (∀ i, (a i).stop = true) ∨ ∀ i, (a i).it = 5 :=
  C86_time_loop_it _ rfl fun _ => [1]

/-- An observation of process 0. -/
theorem SafeI.look0 [NeZero n] (g : S → Val) : SafeI (S := S) I (fun a => ∃ s, I s ∧ a = fun i => if i = 0 then g s else .unit)
    fun i : Fin n => if i = 0 then Prog.look g else .ret .unit := by
  refine SafeI.acc0 0 id (fun s => .ret (g s)) (fun _ => .ret .unit) ?_
  intro s hs
  have e : (fun i : Fin n => if i = 0 then (.ret (g s) : Prog n S Val) else .ret .unit)
      = fun i => .ret (if i = 0 then g s else .unit) := by
    funext i
    split <;> rfl
  rw [e]
  exact SafeI.ret _ ⟨s, hs, rfl⟩

theorem SafeI.gatherFields [NeZero n] (nf : ℕ) (field : Fin n → ℕ → List ℚ) :
    SafeI (S := S) I (fun a => a 0 = (List.range nf).map fun v => (List.finRange n).map fun i => .arr (field i v))
      fun i => gatherFields nf i (field i) := by
  refine SafeI.loop (S := S) (fun done (acc : Fin n → List (List Val)) => acc 0 = done.map fun v =>
    (List.finRange n).map fun i => .arr (field i v)) (List.range nf) _ ?_ (fun _ => []) (by simp)
  intro done v rest acc _ h
  refine SafeI.coll (.gather 0) (fun i => .arr (field i v)) _ ?_
  refine SafeI.ret _ ?_
  simp [h, answers, Kind.needs]

theorem Safe.saveFile [NeZero n] (nf : ℕ) (create : RunDir → RunDir) (field : Fin n → ℕ → List ℚ) :
    Safe (fun a => (∀ i, (a i).isSome) ∧
        a 0 = some ((List.range nf).map fun v => (List.finRange n).map fun i => .arr (field i v)))
      fun i => saveFile nf i create (field i) := by
  have h0 : Safe (S := RunDir) (fun _ => True) fun i : Fin n => (if i = 0 then Prog.change create else .ret ⟨⟩ :
      Prog n RunDir PUnit) := by
    refine SafeI.acc0 0 create (fun _ => .ret PUnit.unit) (fun _ => .ret PUnit.unit) ?_
    intro s _
    simp only [ite_self]
    exact SafeI.ret _ trivial
  refine h0.bind ?_
  intro _ _
  refine (SafeI.gatherFields nf field).bind ?_
  intro l hl
  exact SafeI.ret _ ⟨fun _ => rfl, congrArg some hl⟩

/-- The saving of the fields: for every content of the directory (even if it changes during the saving), all processes take the same
decision, and when the fields are saved, process 0 gets for each variable the parts of all processes in the order of the
ranks. -/
theorem C86_save [NeZero n] (it nf : ℕ) (field : Fin n → ℕ → List ℚ) :
    Completes (fun i => save it nf i (field i)) fun a =>
      (∀ i, a i = none) ∨ ((∀ i, (a i).isSome) ∧
        a 0 = some ((List.range nf).map fun v => (List.finRange n).map fun i => .arr (field i v))) := by
  refine Safe.completes ?_
  unfold save
  refine (SafeI.look0 (n := n) (S := RunDir) fun d => .bool d.byTime.isSome).bind ?_
  rintro _ ⟨s, -, rfl⟩
  refine (SafeI.bcast 0 fun i => if i = 0 then .bool s.byTime.isSome else .unit).bind ?_
  rintro _ rfl
  dsimp only
  cases s.byTime.isSome with
  | false =>
    simp only [if_true, Val.toB, Bool.false_eq_true, if_false]
    exact (Safe.saveFile nf _ field).weaken fun _ h => .inr h
  | true =>
    simp only [if_true, Val.toB]
    refine (SafeI.look0 (n := n) (S := RunDir) fun d => .num (d.byTime.getD 0)).bind ?_
    rintro _ ⟨s', -, rfl⟩
    refine (SafeI.bcast 0 fun i => if i = 0 then .num (s'.byTime.getD 0) else .unit).bind ?_
    rintro _ rfl
    simp only [if_true, Val.toQ]
    split_ifs with hq
    · exact SafeI.ret _ (.inl fun _ => rfl)
    · exact (Safe.saveFile nf _ field).weaken fun _ h => .inr h

/-! ### Process 0 reads for the others -/

/-- The initial state from a file: when process 0 can read the file, all processes get their parts of the variables of the file (zero
for the variables which are needed and not in the file), the time and the iteration. -/
theorem C86_from_file [NeZero n] (part : Fin n → List ℚ → List ℚ) (zero : Fin n → List ℚ) (needed : List (List Char))
    (f : StateFile) :
    Completes (S := S) (fun i => fromFile part zero needed (.ok f) i) fun a => ∀ i, a i =
      (needed.map fun k => match f.vars.lookup k with | some x => part i x | none => zero i, f.time, (f.it : ℚ)) := by
  refine Safe.completes ?_
  unfold fromFile
  refine (SafeI.bcast 0 fun i => .names (if i = 0 then f.vars.map Prod.fst else [])).bind ?_
  rintro _ rfl
  simp only [if_true, Val.toNames]
  have hr : Safe (S := S) (fun a => ∀ i, a i = needed.map fun k => match f.vars.lookup k with
      | some x => part i x | none => zero i) fun i => readVars part zero needed f (f.vars.map Prod.fst) i := by
    refine SafeI.loop (S := S) (fun done (acc : Fin n → List (List ℚ)) => ∀ i, acc i = done.map fun k =>
      match f.vars.lookup k with | some x => part i x | none => zero i) needed _ ?_ (fun _ => []) (by simp)
    intro done k rest acc _ h
    have hmem : ∀ l : List (List Char × List ℚ), k ∈ l.map Prod.fst ↔ (l.lookup k).isSome := by
      intro l
      induction l with
      | nil => simp
      | cons x l ih =>
        rw [List.map_cons, List.mem_cons, ih, List.lookup_cons]
        by_cases e : k = x.1
        · simp [e]
        · have e' : (k == x.1) = false := by simpa using e
          simp [e, e']
    by_cases hk : k ∈ f.vars.map Prod.fst
    · simp only [hk, if_true]
      obtain ⟨x, hx⟩ := Option.isSome_iff_exists.1 ((hmem f.vars).1 hk)
      refine (SafeI.bcast 0 fun i => if i = 0 then .arr ((f.vars.lookup k).getD []) else .unit).bind ?_
      rintro _ rfl
      refine SafeI.ret _ ?_
      intro i
      simp [h i, hx, Val.toArr]
    · simp only [hk, if_false]
      refine SafeI.ret _ ?_
      intro i
      have : f.vars.lookup k = none := by
        rw [← Option.not_isSome_iff_eq_none, ← hmem]
        exact hk
      simp [h i, this]
  refine hr.bind ?_
  intro vars hv
  refine (SafeI.bcast 0 fun i => .num (if i = 0 then f.time else 0)).bind ?_
  rintro _ rfl
  refine (SafeI.bcast 0 fun i => .num (if i = 0 then (f.it : ℚ) else 0)).bind ?_
  rintro _ rfl
  refine SafeI.ret _ ?_
  intro i
  simp [hv i, Val.toQ]

example : (⟨[("ux".toList, [1, 2]), ("b".toList, [3])], 3, 7⟩ : StateFile).vars.lookup "b".toList = some [3] := by decide +kernel

/-- When process 0 cannot read the file (not a state file, other resolution, other size of the domain), it raises an error but the
other processes wait for it for ever: on several processes the run does not end. -/
theorem C86_from_file_violated [NeZero n] (hn : 2 ≤ n) (part : Fin n → List ℚ → List ℚ) (zero : Fin n → List ℚ)
    (needed : List (List Char)) (e : String) (fs : S) :
    NeverCompletes (fun i => fromFile part zero needed (.error e) i) fs := by
  refine stuck (r := 0) (i := ⟨1, hn⟩) (.bcast 0) ?_ ?_ (by simp [Kind.needs])
  · simp [fromFile, Ended]
  · have h1 : (⟨1, hn⟩ : Fin n) ≠ 0 := by simp [Fin.ext_iff]
    simp only [fromFile, h1, if_false, Prog.bcast, Prog.bind]
    exact ⟨_, _, rfl⟩

/-- The forcing: when at least one mode is forced, all processes get the shape of process 0. -/
theorem C86_forcing_init [NeZero n] (nb : ℕ) (hnb : nb ≠ 0) (shape : List ℚ) :
    Completes (S := S) (fun i : Fin n => forcingInit nb shape i) fun a => ∀ i, a i = shape := by
  refine Safe.completes ?_
  simp only [forcingInit, hnb, and_false, if_false]
  refine (SafeI.bcast 0 fun i => if i = 0 then .arr shape else .unit).bind ?_
  rintro _ rfl
  exact SafeI.ret _ fun i => by simp [Val.toArr]

example : (3 : ℕ) ≠ 0 := by decide

/-- When no mode is forced, process 0 raises "0 modes forced." and the other processes wait for it for ever. -/
theorem C86_forcing_init_violated [NeZero n] (hn : 2 ≤ n) (shape : List ℚ) (fs : S) :
    NeverCompletes (fun i : Fin n => forcingInit 0 shape i) fs := by
  have h1 : (⟨1, hn⟩ : Fin n) ≠ 0 := by simp [Fin.ext_iff]
  refine stuck (r := 0) (i := ⟨1, hn⟩) (.bcast 0) ?_ ?_ (by simp [Kind.needs])
  · simp [forcingInit, Ended]
  · simp only [forcingInit, h1, false_and, if_false, Prog.bcast, Prog.bind]
    exact ⟨_, _, rfl⟩

/-- The directory of a previous run: all processes decide together whether a new directory is needed, which is the case when the
resolutions differ. -/
theorem C86_output_init [NeZero n] (resolution r : List ℕ) :
    Completes (S := S) (fun i : Fin n => outputInit resolution (some r) i) fun a => ∀ i, a i = true ↔ resolution ≠ r := by
  refine Safe.completes ?_
  unfold outputInit
  refine (SafeI.bcast 0 fun i => .bool (if i = 0 then decide (resolution ≠ r) else false)).bind ?_
  rintro _ rfl
  exact SafeI.ret _ fun i => by simp [Val.toB]

/-- Without info_simul.h5 in the directory, process 0 raises an error and the other processes wait for it for ever. -/
theorem C86_output_init_violated [NeZero n] (hn : 2 ≤ n) (resolution : List ℕ) (fs : S) :
    NeverCompletes (fun i : Fin n => outputInit resolution none i) fs := by
  have h1 : (⟨1, hn⟩ : Fin n) ≠ 0 := by simp [Fin.ext_iff]
  refine stuck (r := 0) (i := ⟨1, hn⟩) (.bcast 0) ?_ ?_ (by simp [Kind.needs])
  · simp [outputInit, Ended]
  · simp only [outputInit, h1, if_false, Prog.bcast, Prog.bind]
    exact ⟨_, _, rfl⟩

/-- The loading for a restart: when process 0 can read the extenders and the parameters, all processes get them. -/
theorem C86_load_for_restart [NeZero n] (e p : List (List Char)) :
    Completes (S := S) (fun i : Fin n => loadForRestart (.ok e) (.ok p) i) fun a => ∀ i, a i = (e, p) := by
  refine Safe.completes ?_
  have hread : ∀ l : List (List Char), Safe (S := S) (fun a => ∀ i, a i = l) fun i : Fin n =>
      (if i = 0 then (Prog.bcast 0 (.names l)).bind fun v => .ret v.toNames
      else (Prog.bcast 0 .unit).bind fun v => .ret v.toNames : Prog n S (List (List Char))) := by
    intro l
    have e : (fun i : Fin n => (if i = 0 then (Prog.bcast 0 (.names l)).bind fun v => .ret v.toNames
        else (Prog.bcast 0 .unit).bind fun v => .ret v.toNames : Prog n S (List (List Char))))
        = fun i => (Prog.bcast 0 (if i = 0 then .names l else .unit)).bind fun v => .ret v.toNames := by
      funext i
      split <;> rfl
    rw [e]
    refine (SafeI.bcast 0 fun i => if i = 0 then .names l else .unit).bind ?_
    rintro _ rfl
    exact SafeI.ret _ fun i => by simp [Val.toNames]
  unfold loadForRestart
  refine (hread e).bind ?_
  intro a ha
  refine (hread p).bind ?_
  intro b hb
  exact SafeI.ret _ fun i => by rw [ha i, hb i]

/-- When process 0 cannot read the extenders, it raises an error and the other processes wait for it for ever. -/
theorem C86_load_for_restart_violated [NeZero n] (hn : 2 ≤ n) (e : String) (p : Except String (List (List Char))) (fs : S) :
    NeverCompletes (fun i : Fin n => loadForRestart (.error e) p i) fs := by
  have h1 : (⟨1, hn⟩ : Fin n) ≠ 0 := by simp [Fin.ext_iff]
  refine stuck (r := 0) (i := ⟨1, hn⟩) (.bcast 0) ?_ ?_ (by simp [Kind.needs])
  · simp [loadForRestart, Ended, Prog.bind]
  · simp only [loadForRestart, h1, if_false, Prog.bcast, Prog.bind]
    exact ⟨_, _, rfl⟩

/-- Values which are not numbers on all processes end all of them; on none, the run goes on. -/
theorem C86_nan_none (tmp : Fin n → ℚ) :
    Completes (S := S) (fun i : Fin n => nanCheck (fun _ => false) tmp i) fun a => ∀ i j, a i = a j := by
  refine Safe.completes ?_
  simp only [nanCheck, Bool.false_eq_true, if_false]
  refine (SafeI.allreduce maxNums fun i => .num (tmp i)).bind ?_
  rintro _ rfl
  exact SafeI.ret _ fun _ _ => rfl

/-- When some processes find a value which is not a number and others do not, the former raise the error and the latter wait for
them for ever. -/
theorem C86_nan_violated (nan : Fin n → Bool) (tmp : Fin n → ℚ) (i j : Fin n) (hi : nan i = false) (hj : nan j = true)
    (fs : S) : NeverCompletes (fun i : Fin n => nanCheck nan tmp i) fs := by
  refine stuck (r := j) (i := i) .allreduce ?_ ?_ rfl
  · simp [nanCheck, hj, Ended]
  · simp only [nanCheck, hi, Bool.false_eq_true, if_false, Prog.allreduce, Prog.bind]
    exact ⟨_, _, rfl⟩

example : (fun i : Fin 2 => decide (i = 1)) 0 = false ∧ (fun i : Fin 2 => decide (i = 1)) 1 = true := by decide

end Verif.Procs
