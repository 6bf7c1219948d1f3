import Verif.Build.Props

/-! # C99: the order of the construction of a simulation and the tasks enabled -/

namespace Verif.Build

variable {κ : Type}

/-- The event of a class, if its task is enabled. -/
def taskOf (env : Env κ) (x : List Char × κ) : Option (Event κ) :=
  match env.nameTask x.2 with
  | some t => if env.On t then some (.task t x.2) else none
  | none => none

/-- The flags set for a class. -/
def flagsOf (env : Env κ) (x : List Char × κ) : List (List Char × Bool) :=
  match env.nameTask x.2 with
  | some t => if env.On t then [(t, false), (t, true)] else [(t, false)]
  | none => []

theorem buildTask_ok (env : Env κ) (b b' : Built κ) (x : List Char × κ) :
    buildTask env b x = .ok b' ↔ (∃ t, env.nameTask x.2 = some t ∧ env.enable t ≠ some none) ∧
      b' = ⟨b.flags ++ flagsOf env x, b.log ++ (taskOf env x).toList⟩ := by
  unfold buildTask flagsOf taskOf Env.On
  cases env.nameTask x.2 with
  | none => simp
  | some t =>
    rcases h : env.enable t with _ | (_ | _ | _) <;> simp [h, eq_comm]

theorem buildTask_err (env : Env κ) (b : Built κ) (x : List Char × κ) (e : Err) (h : buildTask env b x = .error e) :
    e = .attributeError := by
  unfold buildTask at h
  cases hn : env.nameTask x.2 with
  | none => rw [hn] at h; cases h; rfl
  | some t =>
    rw [hn] at h
    rcases he : env.enable t with _ | (_ | _ | _) <;> simp [he] at h
    exact h.symm

theorem buildTasks_ok (env : Env κ) (l : List (List Char × κ)) (b b' : Built κ) :
    buildTasks env b l = .ok b' ↔ (∀ x ∈ l, ∃ t, env.nameTask x.2 = some t ∧ env.enable t ≠ some none) ∧
      b' = ⟨b.flags ++ l.flatMap (flagsOf env), b.log ++ l.filterMap (taskOf env)⟩ := by
  induction l generalizing b with
  | nil => cases b; simp [buildTasks, eq_comm]
  | cons x l ih =>
    unfold buildTasks
    cases hx : buildTask env b x with
    | error e =>
      simp only [reduceCtorEq, false_iff]
      rintro ⟨h, -⟩
      have := (buildTask_ok env b _ x).2 ⟨h x List.mem_cons_self, rfl⟩
      rw [hx] at this; cases this
    | ok b1 =>
      obtain ⟨h1, rfl⟩ := (buildTask_ok env b b1 x).1 hx
      have e : (x :: l).filterMap (taskOf env) = (taskOf env x).toList ++ l.filterMap (taskOf env) := by
        cases h : taskOf env x <;> simp [h]
      simp only [ih, List.forall_mem_cons, h1, true_and, List.flatMap_cons, e, List.append_assoc]

theorem buildTasks_err {env : Env κ} {l : List (List Char × κ)} {b : Built κ} {e : Err}
    (h : buildTasks env b l = .error e) :
    ¬ ∀ x ∈ l, ∃ t, env.nameTask x.2 = some t ∧ env.enable t ≠ some none := by
  intro hx
  have := (buildTasks_ok env l b _).2 ⟨hx, rfl⟩
  rw [h] at this
  cases this

theorem getCls_ok (d : List (List Char × κ)) (tag : List Char) (c : κ) :
    getCls d tag = .ok c ↔ d.find? (·.1 = tag) = some (tag, c) := by
  unfold getCls
  cases h : d.find? (·.1 = tag) with
  | none => simp
  | some x =>
    have := List.find?_some h
    simp only [decide_eq_true_eq] at this
    cases x
    simp_all

/-- **C99**: the order of the construction: the operators, the output, the state, the time stepping and the initial fields,
which are then set; the tasks which are enabled, in the order of the classes; the end of the initialisation of the outputs;
the preprocessing at last. Each object is built once, with the class of the dictionary. -/
theorem C99_order {env : Env κ} {d : List (List Char × κ)} {b : Built κ} (h : construct env d = .ok b) :
    ∃ oper output state ts fields,
      d.find? (·.1 = "Operators".toList) = some ("Operators".toList, oper) ∧
      d.find? (·.1 = "Output".toList) = some ("Output".toList, output) ∧
      d.find? (·.1 = "State".toList) = some ("State".toList, state) ∧
      d.find? (·.1 = "TimeStepping".toList) = some ("TimeStepping".toList, ts) ∧
      d.find? (·.1 = "InitFields".toList) = some ("InitFields".toList, fields) ∧
      b.log = [.new "Operators".toList oper, .new "Output".toList output, .new "State".toList state,
        .new "TimeStepping".toList ts, .new "InitFields".toList fields, .callInitFields] ++ tasksOf env d ++
        [.postInit] ++ match d.find? (·.1 = "Preprocess".toList) with
          | some x => [.new "Preprocess".toList x.2, .callPreprocess]
          | none => [] := by
  unfold construct at h
  simp only [bind, Except.bind] at h
  cases h1 : getCls d "Operators".toList with
  | error e => rw [h1] at h; cases h
  | ok oper =>
  cases h2 : getCls d "Output".toList with
  | error e => rw [h1, h2] at h; cases h
  | ok output =>
  cases h3 : getCls d "State".toList with
  | error e => rw [h1, h2, h3] at h; cases h
  | ok state =>
  cases h4 : getCls d "TimeStepping".toList with
  | error e => rw [h1, h2, h3, h4] at h; cases h
  | ok ts =>
  cases h5 : getCls d "InitFields".toList with
  | error e => rw [h1, h2, h3, h4, h5] at h; cases h
  | ok fields =>
  rw [h1, h2, h3, h4, h5] at h
  simp only at h
  refine ⟨oper, output, state, ts, fields, (getCls_ok ..).1 h1, (getCls_ok ..).1 h2, (getCls_ok ..).1 h3,
    (getCls_ok ..).1 h4, (getCls_ok ..).1 h5, ?_⟩
  have hf : (d.filter fun x => !simpleTags.contains x.1) = d.filter fun x => decide (x.1 ∉ simpleTags) := by
    refine List.filter_congr fun x _ => ?_
    simp
  rw [hf] at h
  split at h
  · cases h
  · rename_i b1 hb
    obtain ⟨-, rfl⟩ := (buildTasks_ok ..).1 hb
    have ht : (d.filter fun x => decide (x.1 ∉ simpleTags)).filterMap (taskOf env) = tasksOf env d := rfl
    rw [ht] at h
    split at h
    · rename_i x hx
      cases h; rw [hx]
      first | done | simp
    · rename_i hx
      cases h; rw [hx]
      first | rfl | simp

/-- **C99**: the construction fails only if one of the five classes is missing, if another class is not a task or if
`params.<task>` has no attribute `enable`. -/
theorem C99_ok_iff (env : Env κ) (d : List (List Char × κ)) : (∃ b, construct env d = .ok b) ↔
    (∀ tag ∈ ["Operators".toList, "Output".toList, "State".toList, "TimeStepping".toList, "InitFields".toList],
      tag ∈ d.map (·.1)) ∧
    ∀ x ∈ d, Other x → ∃ t, env.nameTask x.2 = some t ∧ env.enable t ≠ some none := by
  have mem : ∀ tag, tag ∈ d.map (·.1) ↔ ∃ c, getCls d tag = .ok c := by
    intro tag
    unfold getCls
    cases h : d.find? (·.1 = tag) with
    | none =>
      simp only [reduceCtorEq, exists_false, iff_false, List.mem_map, not_exists, not_and]
      intro x hx hxt
      simpa [hxt] using List.find?_eq_none.1 h x hx
    | some x =>
      have := List.find?_some h
      simp only [decide_eq_true_eq] at this
      simp only [Except.ok.injEq, exists_eq', iff_true, List.mem_map]
      exact ⟨x, List.mem_of_find?_eq_some h, this⟩
  simp only [List.forall_mem_cons, List.not_mem_nil, false_imp_iff, implies_true, and_true, mem]
  unfold construct
  simp only [bind, Except.bind]
  cases h1 : getCls d "Operators".toList with
  | error e => simp
  | ok oper =>
  cases h2 : getCls d "Output".toList with
  | error e => simp
  | ok output =>
  cases h3 : getCls d "State".toList with
  | error e => simp
  | ok state =>
  cases h4 : getCls d "TimeStepping".toList with
  | error e => simp
  | ok ts =>
  cases h5 : getCls d "InitFields".toList with
  | error e => simp
  | ok fields =>
  simp only [Except.ok.injEq, exists_eq', true_and]
  constructor
  · rintro ⟨b, hb⟩ x hx ho
    split at hb
    · cases hb
    · rename_i b1 hb1
      refine ((buildTasks_ok ..).1 hb1).1 x ?_
      simp only [List.mem_filter]
      exact ⟨hx, by simpa [Other] using ho⟩
  · intro h
    split
    · rename_i e he
      refine absurd (fun x hx => ?_) (buildTasks_err he)
      simp only [List.mem_filter] at hx
      exact h x hx.1 (by simpa [Other] using hx.2)
    · split <;> exact ⟨_, rfl⟩

theorem find_flags (env : Env κ) (t : List Char) (l : List (List Char × κ)) :
    ((l.flatMap (flagsOf env)).reverse.find? (·.1 = t)).map (·.2) =
      if ∃ x ∈ l, env.nameTask x.2 = some t then some (decide (env.On t)) else none := by
  induction l with
  | nil => simp
  | cons x l ih =>
    rw [List.flatMap_cons, List.reverse_append, List.find?_append, Option.map_or, ih]
    by_cases hl : ∃ x ∈ l, env.nameTask x.2 = some t
    · rw [if_pos hl, if_pos (by obtain ⟨y, hy, h⟩ := hl; exact ⟨y, List.mem_cons_of_mem _ hy, h⟩)]
      rfl
    · rw [if_neg hl, Option.none_or]
      have hiff : (∃ y ∈ x :: l, env.nameTask y.2 = some t) ↔ env.nameTask x.2 = some t := by
        constructor
        · rintro ⟨y, hy, h⟩
          rcases List.mem_cons.1 hy with rfl | hy
          · exact h
          · exact absurd ⟨y, hy, h⟩ hl
        · intro h; exact ⟨x, List.mem_cons_self, h⟩
      simp only [hiff]
      unfold flagsOf
      cases hn : env.nameTask x.2 with
      | none => simp
      | some s =>
        by_cases hs : s = t
        · subst hs
          by_cases ho : env.On s <;> simp [ho]
        · by_cases ho : env.On s <;> simp [ho, hs]

/-- **C99**: `sim.is_<task>_enabled` exists for the tasks of the solver only, and is `True` if and only if the user enables
the task. -/
theorem C99_enabled {env : Env κ} {d : List (List Char × κ)} {b : Built κ} (h : construct env d = .ok b) (t : List Char) :
    b.flag t = (if ∃ x ∈ d, x.1 ∉ simpleTags ∧ env.nameTask x.2 = some t then some (decide (env.On t)) else none) := by
  unfold construct at h
  simp only [bind, Except.bind] at h
  cases h1 : getCls d "Operators".toList with
  | error e => rw [h1] at h; cases h
  | ok oper =>
  cases h2 : getCls d "Output".toList with
  | error e => rw [h1, h2] at h; cases h
  | ok output =>
  cases h3 : getCls d "State".toList with
  | error e => rw [h1, h2, h3] at h; cases h
  | ok state =>
  cases h4 : getCls d "TimeStepping".toList with
  | error e => rw [h1, h2, h3, h4] at h; cases h
  | ok ts =>
  cases h5 : getCls d "InitFields".toList with
  | error e => rw [h1, h2, h3, h4, h5] at h; cases h
  | ok fields =>
  rw [h1, h2, h3, h4, h5] at h
  simp only at h
  have hfl : ∀ l : List (List Char × κ), b.flags = l.flatMap (flagsOf env) →
      b.flag t = if ∃ x ∈ l, env.nameTask x.2 = some t then some (decide (env.On t)) else none := by
    intro l hl
    rw [Built.flag, hl, find_flags]
  have hmem : (∃ x ∈ d.filter fun x => !simpleTags.contains x.1, env.nameTask x.2 = some t) ↔
      ∃ x ∈ d, x.1 ∉ simpleTags ∧ env.nameTask x.2 = some t := by
    simp only [List.mem_filter, and_assoc]
    refine exists_congr fun x => and_congr_right fun _ => and_congr_left fun _ => ?_
    simp
  simp only [← hmem]
  refine hfl _ ?_
  split at h
  · cases h
  · rename_i b1 hb
    obtain ⟨-, rfl⟩ := (buildTasks_ok ..).1 hb
    split at h <;> · cases h; simp

/-- **C99**: a simulation has the object of a task (`sim.forcing`, `sim.turb_model`) if and only if
`sim.is_<task>_enabled` is true. -/
theorem C99_task_iff {env : Env κ} {d : List (List Char × κ)} {b : Built κ} (h : construct env d = .ok b) (t : List Char) :
    (∃ c, Event.task t c ∈ b.log) ↔ b.flag t = some true := by
  rw [C99_enabled h t]
  obtain ⟨_, _, _, _, _, -, -, -, -, -, hlog⟩ := C99_order h
  rw [hlog]
  have ht : ∀ c, Event.task t c ∈ tasksOf env d ↔ ∃ x ∈ d, x.1 ∉ simpleTags ∧ env.nameTask x.2 = some t ∧ env.On t ∧
      x.2 = c := by
    intro c
    unfold tasksOf
    simp only [List.mem_filterMap, List.mem_filter, decide_eq_true_eq]
    constructor
    · rintro ⟨x, ⟨hx, hs⟩, he⟩
      split at he
      · rename_i s hn
        split at he
        · rename_i ho
          cases he
          exact ⟨x, hx, hs, hn, ho, rfl⟩
        · cases he
      · cases he
    · rintro ⟨x, hx, hs, hn, ho, rfl⟩
      exact ⟨x, ⟨hx, hs⟩, by simp [hn, ho]⟩
  have hpre : ∀ c, Event.task t c ∉ (match d.find? (·.1 = "Preprocess".toList) with
      | some x => [Event.new "Preprocess".toList x.2, .callPreprocess]
      | none => ([] : List (Event κ))) := by
    intro c
    split <;> simp
  simp only [List.mem_append, ht, hpre, or_false, List.mem_cons, reduceCtorEq, List.not_mem_nil, false_or]
  constructor
  · rintro ⟨c, x, hx, hs, hn, ho, rfl⟩
    rw [if_pos ⟨x, hx, hs, hn⟩]
    simp [ho]
  · intro he
    split at he
    · rename_i hex
      obtain ⟨x, hx, hs, hn⟩ := hex
      simp only [Option.some.injEq, decide_eq_true_eq] at he
      exact ⟨x.2, x, hx, hs, hn, he, rfl⟩
    · cases he

/-- The classes of `ns2d`: the order is the one of `_init_root` (`fluidsim/base/solvers/info_base.py` 35-83), followed by
the preprocessing; a turbulence model is added. -/
def exDict : List (List Char × ℕ) :=
  [("Operators".toList, 0), ("State".toList, 1), ("TimeStepping".toList, 2), ("InitFields".toList, 3),
   ("Forcing".toList, 4), ("Output".toList, 5), ("Preprocess".toList, 6), ("TurbModel".toList, 7)]

/-- The forcing is enabled, the turbulence model is not. -/
def exEnv : Env ℕ :=
  ⟨fun t => if t = "forcing".toList then some (some true) else if t = "turb_model".toList then some (some false) else none,
   fun c => if c = 4 then some "forcing".toList else if c = 7 then some "turb_model".toList else none⟩

example : (match construct exEnv exDict with
    | .ok b => b.log == [.new "Operators".toList 0, .new "Output".toList 5, .new "State".toList 1,
        .new "TimeStepping".toList 2, .new "InitFields".toList 3, .callInitFields, .task "forcing".toList 4, .postInit,
        .new "Preprocess".toList 6, .callPreprocess] && b.flag "forcing".toList == some true &&
        b.flag "turb_model".toList == some false && b.flag "state".toList == none
    | .error _ => false) = true := by decide +kernel

end Verif.Build
