import Verif.Loading.Spec
import Verif.RunDirs.Props

/-!
# C85: the results on the disk when a simulation is loaded or run
-/

namespace Verif.Loading

open RunDirs (Path Fs hasDir content endOfSimul text suffixed)
open PhysFiles (Str)
open Spec

/-! ### Writings -/

theorem content_write (fs fs' : Fs Dir) (p : Path) (file : Str) (a : Act) (h : write fs p file a = .ok fs') (q : Path) :
    content fs' q = (content fs q).map fun d => if q = p then fun n => if n = file then a.on (d n) else d n else d := by
  unfold write at h
  split_ifs at h
  injection h with h
  subst h
  clear *-
  induction fs with
  | nil => rfl
  | cons e fs ih =>
    obtain ⟨r, d⟩ := e
    unfold content at ih ⊢
    rw [List.map_cons]
    by_cases hr : r = p
    · rw [if_pos hr]
      by_cases hq : q = r
      · subst hq
        simp [hr]
      · simp only [List.lookup_cons, beq_eq_false_iff_ne.2 hq]
        exact ih
    · rw [if_neg hr]
      by_cases hq : q = r
      · subst hq
        simp [hr]
      · simp only [List.lookup_cons, beq_eq_false_iff_ne.2 hq]
        exact ih

/-- The acts which keep the records. -/
def Act.keeps : Act → Bool
  | .replace _ => false
  | _ => true

theorem Act.prefix_on (a : Act) (h : a.keeps = true) (l : List Str) : l <+: a.on l := by
  cases a with
  | append r => exact ⟨[r], rfl⟩
  | replace r => simp [Act.keeps] at h
  | create r =>
    simp only [Act.on]
    split_ifs with hl
    · rw [hl]; exact List.nil_prefix
    · exact List.prefix_rfl

theorem writes_spec (p : Path) (files : List Str) (l : List (Str × Act))
    (hl : ∀ e ∈ l, e.2.keeps = true ∨ e.1 ∈ files) (fs fs' : Fs Dir) (h : writes p l fs = .ok fs') :
    OthersKept p fs fs' ∧ Extends files fs fs' := by
  induction l generalizing fs with
  | nil =>
    injection h with h
    subst h
    exact ⟨fun q _ d hd => hd, fun q d hd => ⟨d, hd, fun f _ => List.prefix_rfl⟩⟩
  | cons e l ih =>
    obtain ⟨file, a⟩ := e
    simp only [writes, bind, Except.bind] at h
    cases hw : write fs p file a with
    | error e => simp [hw] at h
    | ok fs1 =>
      simp only [hw] at h
      obtain ⟨i1, i2⟩ := ih (fun e he => hl e (List.mem_cons_of_mem _ he)) fs1 h
      have hc := content_write fs fs1 p file a hw
      refine ⟨fun q hq d hd => i1 q hq d (by rw [hc q, hd]; simp [hq]), fun q d hd => ?_⟩
      obtain ⟨d', h1, h2⟩ := i2 q _ (by rw [hc q, hd]; rfl)
      refine ⟨d', h1, fun f hf => List.IsPrefix.trans ?_ (h2 f hf)⟩
      by_cases hq : q = p
      · by_cases hn : f = file
        · simp only [hq, hn, if_true]
          rcases hl (file, a) (by simp) with hk | hk
          · exact Act.prefix_on a hk _
          · exact absurd (hn ▸ hk) hf
        · simp only [hq, hn, if_true, if_false]
          exact List.prefix_rfl
      · simp only [hq, if_false]
        exact List.prefix_rfl

theorem initWrites_keeps (s new tc : Bool) (periods : List (Str × ℚ)) :
    ∀ e ∈ initWrites s new tc periods, e.2.keeps = true := by
  intro e he
  unfold initWrites at he
  split_ifs at he
  all_goals
    simp only [List.mem_append, List.mem_cons, List.not_mem_nil, or_false, List.mem_map] at he
  · rcases he with ((((rfl | rfl) | (rfl | rfl)) | rfl) | ⟨o, -, rfl⟩) <;> rfl
  · rcases he with (((rfl | rfl) | (rfl | rfl)) | ⟨o, -, rfl⟩) <;> rfl
  · rcases he with (((rfl | rfl) | rfl) | ⟨o, -, rfl⟩) <;> rfl
  · rcases he with ((rfl | rfl) | ⟨o, -, rfl⟩) <;> rfl

theorem stepWrites_keeps (s : Sim) (d : Due) : ∀ e ∈ stepWrites s d, e.2.keeps = true ∨ e.1 ∈ [forcingFile] := by
  intro e he
  unfold stepWrites at he
  split_ifs at he
  · simp only [List.mem_append, List.mem_map] at he
    rcases he with (he | he) | ⟨o, -, rfl⟩
    · cases hf : d.forcing with
      | none => simp [hf] at he
      | some r =>
        simp only [hf, List.mem_singleton] at he
        subst he
        exact .inr (by simp)
    · cases hm : d.msg with
      | none => simp [hm] at he
      | some r =>
        simp only [hm, List.mem_singleton] at he
        subst he
        exact .inl rfl
    · exact .inl rfl
  · simp at he

theorem Extends.trans {files : List Str} {a b c : Fs Dir} (h1 : Extends files a b) (h2 : Extends files b c) :
    Extends files a c := by
  intro p d hd
  obtain ⟨d1, e1, k1⟩ := h1 p d hd
  obtain ⟨d2, e2, k2⟩ := h2 p d1 e1
  exact ⟨d2, e2, fun f hf => (k1 f hf).trans (k2 f hf)⟩

theorem OthersKept.trans {p : Path} {a b c : Fs Dir} (h1 : OthersKept p a b) (h2 : OthersKept p b c) :
    OthersKept p a c := fun q hq d hd => h2 q hq d (h1 q hq d hd)

theorem steps_spec (s : Sim) (ds : List Due) (fs fs' : Fs Dir) (h : steps s ds fs = .ok fs') :
    OthersKept s.path fs fs' ∧ Extends [forcingFile] fs fs' := by
  induction ds generalizing fs with
  | nil =>
    injection h with h
    subst h
    exact ⟨fun q _ d hd => hd, fun q d hd => ⟨d, hd, fun f _ => List.prefix_rfl⟩⟩
  | cons d ds ih =>
    simp only [steps, bind, Except.bind] at h
    cases hw : writes s.path (stepWrites s d) fs with
    | error e => simp [hw] at h
    | ok fs1 =>
      simp only [hw] at h
      obtain ⟨w1, w2⟩ := writes_spec s.path [forcingFile] _ (stepWrites_keeps s d) fs fs1 hw
      obtain ⟨i1, i2⟩ := ih fs1 h
      exact ⟨OthersKept.trans w1 i1, Extends.trans w2 i2⟩

/-! ### With saving -/

theorem freshName_free (fs : Fs Dir) (dir : Path) (l : List Str) (n : Str) (h : freshName fs dir l = some n) :
    hasDir fs (dir ++ [n]) = false := by
  induction l with
  | nil => simp [freshName] at h
  | cons m l ih =>
    unfold freshName at h
    split_ifs at h with hm
    · exact ih h
    · injection h with h
      subst h
      simpa using hm

theorem choosePath_spec (y : Sys) (fs fs' : Fs Dir) (p : Params) (sameRes new : Bool) (path : Path) (name : Str)
    (h : choosePath y fs p sameRes = .ok (fs', path, name, new)) :
    (∀ q d, content fs q = some d → content fs' q = some d) ∧
    (p.hasToSave = true → new = true → content fs path = none) ∧
    (p.hasToSave = false → fs' = fs) ∧
    (new = false → fs' = fs ∧ p.pathRun = some path) ∧ (p.newDir = true → new = true) := by
  have key : newRun y fs p.hasToSave = .ok (fs', path, name, new) →
    (∀ q d, content fs q = some d → content fs' q = some d) ∧
    (p.hasToSave = true → new = true → content fs path = none) ∧
    (p.hasToSave = false → fs' = fs) ∧
    (new = false → fs' = fs ∧ p.pathRun = some path) ∧ (p.newDir = true → new = true) := by
    intro h
    unfold newRun at h
    split_ifs at h with hs
    · cases hn : freshName fs (y.base ++ y.sub) y.names with
      | none => simp [hn] at h
      | some n =>
        simp only [hn, Except.ok.injEq, Prod.mk.injEq] at h
        obtain ⟨rfl, rfl, rfl, rfl⟩ := h
        have hfree := freshName_free _ _ _ _ hn
        have hnone := (RunDirs.content_none fs _).2 hfree
        refine ⟨fun q d hd => ?_, fun _ _ => hnone, fun hc => by simp [hs] at hc, fun hc => by simp at hc,
          fun _ => rfl⟩
        have hne : q ≠ y.base ++ y.sub ++ [n] := by
          rintro rfl
          rw [hnone] at hd
          simp at hd
        unfold content at hd ⊢
        simp only [List.lookup_cons, beq_eq_false_iff_ne.2 hne]
        exact hd
    · simp only [Except.ok.injEq, Prod.mk.injEq] at h
      obtain ⟨rfl, rfl, rfl, rfl⟩ := h
      exact ⟨fun q d hd => hd, fun hc => absurd hc hs, fun _ => rfl, fun hc => by simp at hc, fun _ => rfl⟩
  unfold choosePath at h
  by_cases hn : p.newDir = true
  · rw [if_pos hn] at h
    exact key h
  · rw [if_neg hn] at h
    cases hp : p.pathRun with
    | none => simp [hp] at h
    | some d =>
      simp only [hp] at h
      split_ifs at h
      · rw [hp] at key
        exact key h
      · simp only [Except.ok.injEq, Prod.mk.injEq] at h
        obtain ⟨rfl, rfl, rfl, rfl⟩ := h
        exact ⟨fun q d hd => hd, fun _ h => by simp at h, fun _ => rfl, fun _ => ⟨rfl, rfl⟩, fun h => absurd h hn⟩

/-- **C85**: a simulation which saves its results, launched and advanced by any number of steps with any schedule, only
touches the directory of its run: the other directories are unchanged, and in the directory of the run the files which
existed keep their records, which are followed by the new ones (except the state of a random forcing, which is replaced). If
a new directory was asked for, it did not exist before: no directory of results is touched. -/
theorem C85_append_only (y : Sys) (fs fs1 fs2 : Fs Dir) (p : Params) (sameRes tc : Bool) (s : Sim)
    (h1 : launch y fs p sameRes tc = .ok (fs1, s)) (ds : List Due) (h2 : steps s ds fs1 = .ok fs2) :
    OthersKept s.path fs fs2 ∧ Extends [forcingFile] fs fs2 ∧
    (p.newDir = true → p.hasToSave = true → content fs s.path = none ∧
      ∀ q d, content fs q = some d → content fs2 q = some d) := by
  simp only [launch, bind, Except.bind] at h1
  cases hc : choosePath y fs p sameRes with
  | error e => simp [hc] at h1
  | ok r =>
    obtain ⟨fs0, path, name, new⟩ := r
    simp only [hc] at h1
    obtain ⟨c1, c2, c3, c4, c5⟩ := choosePath_spec y fs fs0 p sameRes new path name hc
    cases hw : writes path (initWrites p.hasToSave new tc (effectivePeriods p)) fs0 with
    | error e => simp [hw] at h1
    | ok fs1' =>
      simp only [hw, Except.ok.injEq, Prod.mk.injEq] at h1
      obtain ⟨rfl, rfl⟩ := h1
      obtain ⟨w1, w2⟩ := writes_spec path [forcingFile] _
        (fun e he => .inl (initWrites_keeps _ _ _ _ e he)) fs0 fs1' hw
      obtain ⟨k1, k2⟩ := steps_spec _ ds fs1' fs2 h2
      have o : OthersKept path fs fs2 := fun q hq d hd => k1 q hq d (w1 q hq d (c1 q d hd))
      refine ⟨o, fun q d hd => Extends.trans w2 k2 q d (c1 q d hd), fun hn hs => ?_⟩
      have hnone := c2 hs (c5 hn)
      refine ⟨hnone, fun q d hd => o q ?_ d hd⟩
      rintro rfl
      rw [hnone] at hd
      simp at hd

/-! ### The records of the outputs -/

theorem writes_content (p : Path) (l : List (Str × Act)) (fs fs' : Fs Dir) (h : writes p l fs = .ok fs') :
    content fs' p = (content fs p).map fun d f => (l.filter fun e => e.1 = f).foldl (fun r e => e.2.on r) (d f) := by
  induction l generalizing fs with
  | nil =>
    injection h with h
    subst h
    simp
  | cons e l ih =>
    obtain ⟨file, a⟩ := e
    simp only [writes, bind, Except.bind] at h
    cases hw : write fs p file a with
    | error e => simp [hw] at h
    | ok fs1 =>
      simp only [hw] at h
      rw [ih fs1 h, content_write fs fs1 p file a hw p, Option.map_map]
      congr 1
      funext d f
      simp only [Function.comp, if_true, List.filter_cons]
      by_cases hf : f = file
      · subst hf
        simp
      · simp [hf, Ne.symm hf]

/-- The names which are not those of outputs. -/
def special : List Str :=
  [lockFile, stdoutFile, forcingFile, "info_solver.xml".toList, "params_simul.xml".toList]

theorem init_filter (new tc : Bool) (periods : List (Str × ℚ)) (f : Str) (hf : f ∉ special) :
    (initWrites true new tc periods).filter (fun e => e.1 = f)
      = (periods.filter fun o => o.1 = f ∧ o.2 ≠ 0).map fun o => (o.1, .append "init".toList) := by
  simp only [special, List.mem_cons, List.not_mem_nil, or_false, not_or] at hf
  obtain ⟨h1, h2, h3, h4, h5⟩ := hf
  have e1 : ∀ l : List (Str × ℚ), ((l.filter fun o => o.2 ≠ 0).map fun o => (o.1, Act.append "init".toList)).filter
      (fun e => e.1 = f) = (l.filter fun o => o.1 = f ∧ o.2 ≠ 0).map fun o => (o.1, .append "init".toList) := by
    intro l
    rw [List.filter_map, List.filter_filter]
    congr 1
    apply List.filter_congr
    intro o _
    simp [Function.comp]
  simp only [initWrites, if_true, List.filter_append, e1]
  generalize "info_solver.xml".toList = s4 at h4 ⊢
  generalize "params_simul.xml".toList = s5 at h5 ⊢
  cases new <;> cases tc <;>
    simp [List.filter_cons, Ne.symm h1, Ne.symm h2, Ne.symm h3, Ne.symm h4, Ne.symm h5, decide_false]

theorem step_filter (s : Sim) (hs : s.hasToSave = true) (d : Due) (f : Str) (hf : f ∉ special) :
    (stepWrites s d).filter (fun e => e.1 = f)
      = if s.periods.any (fun q => q.1 = f ∧ q.2 ≠ 0) then
          (d.outputs.filter fun o => o.1 = f).map fun o => (o.1, .append o.2)
        else [] := by
  simp only [special, List.mem_cons, List.not_mem_nil, or_false, not_or] at hf
  obtain ⟨h1, h2, h3, h4, h5⟩ := hf
  have e1 : ((d.outputs.filter fun o => s.periods.any fun q => q.1 = o.1 ∧ q.2 ≠ 0).map
      fun o => (o.1, Act.append o.2)).filter (fun e => e.1 = f) =
      if s.periods.any (fun q => q.1 = f ∧ q.2 ≠ 0) then
          (d.outputs.filter fun o => o.1 = f).map fun o => (o.1, .append o.2)
        else [] := by
    rw [List.filter_map, List.filter_filter]
    split_ifs with hc
    · congr 1
      apply List.filter_congr
      intro o _
      simp only [Function.comp]
      by_cases ho : o.1 = f
      · rw [ho, hc]; simp
      · simp [ho]
    · rw [List.filter_eq_nil_iff.2, List.map_nil]
      intro o _
      simp only [Function.comp]
      by_cases ho : o.1 = f
      · rw [ho]; simpa using hc
      · simp [ho]
  simp only [stepWrites, hs, if_true, List.filter_append, e1]
  cases d.forcing <;> cases d.msg <;> simp [List.filter_cons, Ne.symm h2, Ne.symm h3]

theorem foldl_append (l : List Str) (r : List Str) (g : Str → Str × Act) (hg : ∀ x, (g x).2 = .append x) :
    (l.map g).foldl (fun r e => e.2.on r) r = r ++ l := by
  induction l generalizing r with
  | nil => simp
  | cons x l ih =>
    rw [List.map_cons, List.foldl_cons, ih, hg]
    simp [Act.on]

theorem steps_content (s : Sim) (hs : s.hasToSave = true) (f : Str) (hf : f ∉ special) (ds : List Due)
    (fs fs' : Fs Dir) (h : steps s ds fs = .ok fs') (d : Dir) (hd : content fs s.path = some d) :
    ∃ d', content fs' s.path = some d' ∧
      d' f = d f ++ (if s.periods.any (fun q => q.1 = f ∧ q.2 ≠ 0) then
        (ds.flatMap fun u => u.outputs.filter fun o => o.1 = f).map (·.2) else []) := by
  induction ds generalizing fs d with
  | nil =>
    injection h with h
    subst h
    exact ⟨d, hd, by simp⟩
  | cons u ds ih =>
    simp only [steps, bind, Except.bind] at h
    cases hw : writes s.path (stepWrites s u) fs with
    | error e => simp [hw] at h
    | ok fs1 =>
      simp only [hw] at h
      have hc := writes_content s.path _ fs fs1 hw
      rw [hd] at hc
      obtain ⟨d', e1, e2⟩ := ih fs1 h _ hc
      refine ⟨d', e1, ?_⟩
      rw [e2]
      beta_reduce
      rw [step_filter s hs u f hf]
      split_ifs with hc2
      · have := foldl_append ((u.outputs.filter fun o => o.1 = f).map (·.2)) (d f) (fun x => (f, .append x))
          (fun _ => rfl)
        rw [List.map_map] at this
        have e3 : (u.outputs.filter fun o => o.1 = f).map (fun o => (o.1, Act.append o.2))
            = (u.outputs.filter fun o => o.1 = f).map ((fun x => (f, Act.append x)) ∘ fun o => o.2) := by
          apply List.map_congr_left
          intro o ho
          have := (List.mem_filter.1 ho).2
          simp only [decide_eq_true_eq] at this
          simp [this]
        rw [e3, this]
        simp
      · simp

/-- **C85**: what an output writes in the directory of the run: a record when the simulation is constructed and a record each
time it is due, after what the file contained, if its period is not zero; nothing if its period is zero. -/
theorem C85_records (y : Sys) (fs fs1 fs2 : Fs Dir) (p : Params) (hs : p.hasToSave = true) (hn : p.newDir = false)
    (tc : Bool) (s : Sim) (h1 : launch y fs p true tc = .ok (fs1, s)) (ds : List Due) (h2 : steps s ds fs1 = .ok fs2)
    (f : Str) (hf : f ∉ special) (period : ℚ) (hper : p.periods.filter (fun o => o.1 = f) = [(f, period)]) (d : Dir)
    (hd : content fs s.path = some d) :
    p.pathRun = some s.path ∧ ∃ d', content fs2 s.path = some d' ∧
      d' f = d f ++ if period = 0 then [] else
        "init".toList :: (ds.flatMap fun u => u.outputs.filter fun o => o.1 = f).map (·.2) := by
  simp only [launch, choosePath, hn, hs, Bool.false_eq_true, if_false, bind, Except.bind, Bool.not_true,
    Bool.and_false] at h1
  cases hp : p.pathRun with
  | none => simp [hp] at h1
  | some path =>
    simp only [hp] at h1
    cases hw : writes path (initWrites true false tc (effectivePeriods p)) fs with
    | error e => simp [hw] at h1
    | ok fs1' =>
      simp only [hw, Except.ok.injEq, Prod.mk.injEq] at h1
      obtain ⟨rfl, rfl⟩ := h1
      refine ⟨rfl, ?_⟩
      have hc := writes_content path _ fs fs1' hw
      simp only at hd
      rw [hd] at hc
      obtain ⟨d', e1, e2⟩ := steps_content ⟨true, path, y.names.headD [], effectivePeriods p⟩ rfl f hf ds fs1' fs2 h2
        _ hc
      refine ⟨d', e1, ?_⟩
      rw [e2]
      beta_reduce
      rw [init_filter _ _ _ f hf]
      have ep : effectivePeriods p = p.periods := by simp [effectivePeriods, hs]
      have e3 : p.periods.filter (fun o => o.1 = f ∧ o.2 ≠ 0) = if period = 0 then [] else [(f, period)] := by
        have : p.periods.filter (fun o => o.1 = f ∧ o.2 ≠ 0)
            = (p.periods.filter (fun o => o.1 = f)).filter fun o => o.2 ≠ 0 := by
          rw [List.filter_filter]
          apply List.filter_congr
          intro o _
          simp [Bool.and_comm]
        rw [this, hper]
        by_cases h0 : period = 0 <;> simp [h0]
      have e4 : p.periods.any (fun q => q.1 = f ∧ q.2 ≠ 0) = decide (period ≠ 0) := by
        by_cases h0 : period = 0
        · rw [if_pos h0, List.filter_eq_nil_iff] at e3
          simp only [h0, ne_eq, not_true, decide_false, List.any_eq_false]
          exact e3
        · rw [if_neg h0] at e3
          have hm : (f, period) ∈ p.periods.filter (fun o => o.1 = f ∧ o.2 ≠ 0) := by rw [e3]; simp
          rw [List.mem_filter] at hm
          simp only [ne_eq, h0, not_false_eq_true, decide_true, List.any_eq_true]
          exact ⟨_, hm.1, hm.2⟩
      rw [ep, e3, e4]
      by_cases h0 : period = 0
      · simp [h0]
      · simp [h0, Act.on]

/-! ### Without saving -/

theorem launch_no_save (y : Sys) (fs : Fs Dir) (p : Params) (sameRes tc : Bool) (hs : p.hasToSave = false) :
    launch y fs p sameRes tc =
      if p.newDir then .ok (fs, ⟨false, y.base ++ y.sub ++ [y.names.headD []], y.names.headD [], effectivePeriods p⟩)
      else match p.pathRun with
        | none => .error .attribute
        | some d => .ok (fs, ⟨false, d, y.names.headD [], effectivePeriods p⟩) := by
  unfold launch choosePath newRun
  simp only [hs, bind, Except.bind, initWrites, Bool.false_eq_true, if_false, writes, Bool.false_and]
  split_ifs
  · rfl
  · cases p.pathRun <;> rfl

theorem steps_no_save (s : Sim) (hs : s.hasToSave = false) (ds : List Due) (fs : Fs Dir) : steps s ds fs = .ok fs := by
  induction ds with
  | nil => rfl
  | cons d ds ih =>
    simp only [steps, stepWrites, hs, Bool.false_eq_true, if_false, writes, bind, Except.bind]
    exact ih

/-- **C85**: with `params.output.HAS_TO_SAVE = False`, the construction of the simulation and any number of time steps with
any periods change nothing on the disk. -/
theorem C85_no_save (y : Sys) (fs fs1 : Fs Dir) (p : Params) (sameRes tc : Bool) (hs : p.hasToSave = false) (s : Sim)
    (h : launch y fs p sameRes tc = .ok (fs1, s)) (ds : List Due) : steps s ds fs1 = .ok fs := by
  have hl := launch_no_save y fs p sameRes tc hs
  rw [h] at hl
  split_ifs at hl
  · simp only [Except.ok.injEq, Prod.mk.injEq] at hl
    obtain ⟨rfl, rfl⟩ := hl
    exact steps_no_save _ rfl _ _
  · cases hp : p.pathRun with
    | none => simp [hp] at hl
    | some d =>
      simp only [hp, Except.ok.injEq, Prod.mk.injEq] at hl
      obtain ⟨rfl, rfl⟩ := hl
      exact steps_no_save _ rfl _ _

/-- **C85**: a simulation loaded for plots has the parameters of the directory, and loading it changes nothing on the disk,
whatever the saved parameters. -/
theorem C85_load_for_plot (y : Sys) (fs : Fs Dir) (dir : Path) (p : Params) (sameRes tc : Bool) :
    ∃ s, launch y fs (plotParams dir p) sameRes tc = .ok (fs, s) ∧ s.path = dir ∧ s.hasToSave = false ∧
      (∀ o ∈ s.periods, o.2 = 0) ∧ (plotParams dir p).rest = p.rest ∧ (plotParams dir p).periods = p.periods ∧
      (plotParams dir p).onlyCoarse = true ∧ (plotParams dir p).onlinePlot = false ∧
      (plotParams dir p).init = .constant := by
  have e : (plotParams dir p).hasToSave = false ∧ (plotParams dir p).newDir = false ∧
      (plotParams dir p).pathRun = some dir ∧ (plotParams dir p).rest = p.rest ∧
      (plotParams dir p).periods = p.periods ∧ (plotParams dir p).onlyCoarse = true ∧
      (plotParams dir p).onlinePlot = false ∧ (plotParams dir p).init = .constant := by
    unfold plotParams defaultFft
    split <;> exact ⟨rfl, rfl, rfl, rfl, rfl, rfl, rfl, rfl⟩
  obtain ⟨e1, e2, e3, e4, e5, e6, e7, e8⟩ := e
  refine ⟨⟨false, dir, y.names.headD [], effectivePeriods (plotParams dir p)⟩, ?_, rfl, rfl, ?_, e4, e5, e6, e7, e8⟩
  · rw [launch_no_save _ _ _ _ _ e1]
    simp [e2, e3]
  · intro o ho
    simp only [effectivePeriods, e1, Bool.false_eq_true, if_false, List.mem_map] at ho
    obtain ⟨q, -, rfl⟩ := ho
    rfl

/-- **C85**: a simulation loaded from a file of state starts from this file, in its directory, and loading it and advancing
it change nothing on the disk, whatever the saved parameters, if the parameters for saving are modified (the default). -/
theorem C85_load_state (y : Sys) (fs : Fs Dir) (dir : Path) (file : Str) (p : Params) (sameRes tc : Bool)
    (ds : List Due) :
    ∃ s, launch y fs (stateParams dir file true p) sameRes tc = .ok (fs, s) ∧ s.path = dir ∧ steps s ds fs = .ok fs ∧
      (stateParams dir file true p).init = .fromFile dir file ∧ (stateParams dir file true p).rest = p.rest := by
  have e : (stateParams dir file true p).hasToSave = false ∧ (stateParams dir file true p).newDir = false ∧
      (stateParams dir file true p).pathRun = some dir ∧ (stateParams dir file true p).init = .fromFile dir file ∧
      (stateParams dir file true p).rest = p.rest := by
    simp only [stateParams, restartParams, if_true, defaultFft]
    split <;> exact ⟨rfl, rfl, rfl, rfl, rfl⟩
  obtain ⟨e1, e2, e3, e4, e5⟩ := e
  refine ⟨⟨false, dir, y.names.headD [], effectivePeriods (stateParams dir file true p)⟩, ?_, rfl,
    steps_no_save _ rfl _ _, e4, e5⟩
  rw [launch_no_save _ _ _ _ _ e1]
  simp [e2, e3]

/-- **C85**: at the end of a simulation with `HAS_TO_SAVE = False` nothing is written, and the directory is kept when it is in
FLUIDSIM_PATH, or when there is no directory. -/
theorem C85_no_save_end_partial (y : Sys) (fs : Fs Dir) (s : Sim) (hs : s.hasToSave = false) (d : Due) (same : Bool)
    (h : (text y.final).isPrefixOf (text s.path) = true ∨ same = true) :
    finish y s d same fs = .ok (fs, s.path) := by
  simp only [finish, stepWrites, hs, Bool.false_eq_true, if_false, writes, bind, Except.bind,
    RunDirs.C21_stays fs y.final y.sub s.name same s.path h]

/-- **C85** (finding): a directory of results outside of FLUIDSIM_PATH, loaded with `load_state_phys_file` (which puts
`HAS_TO_SAVE = False`) and advanced, is moved at the end: it is not at its place any more. -/
theorem C85_loaded_directory_moved_violated (y : Sys) (fs : Fs Dir) (dir : Path) (c : Dir) (hc : content fs dir = some c)
    (hout : (text y.final).isPrefixOf (text dir) = false) (file : Str) (p : Params) (sameRes tc : Bool) (ds : List Due)
    (d : Due) :
    ∃ s fs' path, launch y fs (stateParams dir file true p) sameRes tc = .ok (fs, s) ∧ steps s ds fs = .ok fs ∧
      finish y s d false fs = .ok (fs', path) ∧ content fs' dir = none ∧ content fs' path = some c := by
  obtain ⟨s, h1, h2, h3, -, -⟩ := C85_load_state y fs dir file p sameRes tc ds
  have hs : s.hasToSave = false := by
    have e1 : (stateParams dir file true p).hasToSave = false := by
      simp only [stateParams, restartParams, if_true, defaultFft]
      split <;> rfl
    rw [launch_no_save _ _ _ _ _ e1] at h1
    split_ifs at h1
    · simp only [Except.ok.injEq, Prod.mk.injEq] at h1
      rw [← h1.2]
    · cases hp : (stateParams dir file true p).pathRun with
      | none => simp [hp] at h1
      | some d =>
        simp only [hp, Except.ok.injEq, Prod.mk.injEq] at h1
        rw [← h1.2]
  obtain ⟨i, fs', e1, -, -, e2, e3, -⟩ := RunDirs.C21_moved fs y.final y.sub s.name dir c hc hout
  refine ⟨s, fs', _, h1, h3, ?_, e3, e2⟩
  simp only [finish, stepWrites, hs, Bool.false_eq_true, if_false, writes, bind, Except.bind, h2, e1]

/-- **C85** (finding): with `modif_save_params=False`, loading a state of a simulation adds a record to each output of its
directory, although nothing is computed. -/
theorem C85_load_state_writes_violated : ∃ (y : Sys) (fs fs' : Fs Dir) (dir : Path) (file out : Str) (p : Params)
    (s : Sim) (d d' : Dir), launch y fs (stateParams dir file false p) true false = .ok (fs', s) ∧
      content fs dir = some d ∧ content fs' dir = some d' ∧ d out = ["t0".toList] ∧
      d' out = ["t0".toList, "init".toList] := by
  let out := "spatial_means.txt".toList
  let dir : Path := ["run".toList]
  let d : Dir := fun n => if n = out then ["t0".toList] else []
  let p : Params := ⟨true, true, true, none, .constant, false, false, none, none, none, [(out, 1)], 0⟩
  refine ⟨⟨[], [], [], []⟩, [(dir, d)], _, dir, "f".toList, out, p, _, d, _, rfl, rfl, rfl, rfl, ?_⟩
  decide +kernel

/-- Non-vacuity of `C85_append_only`: a run in a new directory beside an old one, with one output and one step. -/
example : ∃ fs' s, launch ⟨["sim".toList], ["sim".toList], [], ["a".toList, "b".toList]⟩
      [(["sim".toList, "a".toList], fun n => if n = stdoutFile then ["old".toList] else [])]
      ⟨true, false, true, none, .constant, false, false, none, none, none, [("means".toList, 1), ("spectra".toList, 0)], 0⟩
      true true = .ok (fs', s) ∧ s.path = ["sim".toList, "b".toList] ∧
    ∃ fs'' d, steps s [⟨some "it = 0".toList, [("means".toList, "t1".toList), ("spectra".toList, "t1".toList)],
        some "seeds2".toList⟩] fs' = .ok fs'' ∧ content fs'' s.path = some d ∧
      d "means".toList = ["init".toList, "t1".toList] ∧ d "spectra".toList = [] ∧ d forcingFile = ["seeds2".toList] ∧
      d stdoutFile = ["Program fluidsim".toList, "it = 0".toList] := by
  refine ⟨_, _, rfl, rfl, _, _, rfl, rfl, ?_⟩
  decide +kernel

/-- A run continued in its directory: the hypotheses of `C85_records` are met and the file grows. -/
example : ∃ fs' s, launch ⟨["sim".toList], ["sim".toList], [], ["b".toList]⟩
      [(["sim".toList, "a".toList], fun n => if n = "means".toList then ["t0".toList] else [])]
      ⟨true, false, false, some ["sim".toList, "a".toList], .constant, false, false, none, none, none,
        [("means".toList, 1), ("spectra".toList, 0)], 0⟩ true false = .ok (fs', s) ∧
      s.path = ["sim".toList, "a".toList] ∧ "means".toList ∉ special ∧
    ∃ fs'' d, steps s [⟨none, [("means".toList, "t1".toList), ("spectra".toList, "t1".toList)], none⟩] fs' = .ok fs'' ∧
      content fs'' s.path = some d ∧ d "means".toList = ["t0".toList, "init".toList, "t1".toList] ∧
      d "spectra".toList = [] := by
  refine ⟨_, _, rfl, rfl, by decide +kernel, _, _, rfl, rfl, ?_⟩
  decide +kernel

end Verif.Loading
