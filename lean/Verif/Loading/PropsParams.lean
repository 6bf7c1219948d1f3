import Verif.Loading.Props

/-!
# C85: the parameters of the loaded simulations, the files of a launch and the last records
-/

namespace Verif.Loading

open RunDirs (Path Fs hasDir content endOfSimul text suffixed)
open PhysFiles (Str)
open Spec

/-! ### Parameters -/

/-- **C85**: the simulation of `load_for_restart` starts from the file, continues in its directory, is not preprocessed again,
and has all the other saved parameters, including those for saving. -/
theorem C85_restart_params (dir : Path) (file : Str) (p : Params) :
    let q := restartParams dir file p
    q.init = .fromFile dir file ∧ q.pathRun = some dir ∧ q.newDir = false ∧ q.modifAfterInit = false ∧
      q.preprocess ≠ some true ∧ (q.preprocess = none ↔ p.preprocess = none) ∧
      q.hasToSave = p.hasToSave ∧ q.onlinePlot = p.onlinePlot ∧ q.onlyCoarse = p.onlyCoarse ∧ q.typeFft = p.typeFft ∧
      q.typeFft2d = p.typeFft2d ∧ q.periods = p.periods ∧ q.rest = p.rest := by
  refine ⟨rfl, rfl, rfl, rfl, ?_, ?_, rfl, rfl, rfl, rfl, rfl, rfl, rfl⟩ <;>
    cases h : p.preprocess <;> simp [restartParams, h]

/-- **C85**: the simulation of `load_state_phys_file` has the real operators (not a coarse one), the default class for the
Fourier transforms if the solver has such a parameter, and is not preprocessed again; what is saved is kept with
`modif_save_params=False`, nothing is saved otherwise. -/
theorem C85_state_params (dir : Path) (file : Str) (modifSave : Bool) (p : Params) :
    let q := stateParams dir file modifSave p
    q.onlyCoarse = false ∧ q.modifAfterInit = false ∧ q.preprocess ≠ some true ∧
      q.hasToSave = (!modifSave && p.hasToSave) ∧ q.onlinePlot = (!modifSave && p.onlinePlot) ∧ q.periods = p.periods ∧
      (p.typeFft = none → q.typeFft = none ∧ q.typeFft2d = p.typeFft2d) ∧
      (p.typeFft ≠ none → q.typeFft = some "default".toList ∧
        (p.typeFft2d = none → q.typeFft2d = none) ∧
        (p.typeFft2d ≠ none → q.typeFft2d = some "sequential".toList)) := by
  obtain ⟨a, b, c, e, f, g, h, i, j, k, l, m⟩ := p
  cases modifSave <;> cases i <;> cases j <;> cases k <;>
    simp [stateParams, restartParams, defaultFft]

/-- **C85**: the same for `load_sim_for_plot`; the operators are coarse. -/
theorem C85_plot_params (dir : Path) (p : Params) :
    let q := plotParams dir p
    q.modifAfterInit = false ∧ q.preprocess ≠ some true ∧
      (p.typeFft = none → q.typeFft = none ∧ q.typeFft2d = p.typeFft2d) ∧
      (p.typeFft ≠ none → q.typeFft = some "default".toList ∧
        (p.typeFft2d = none → q.typeFft2d = none) ∧
        (p.typeFft2d ≠ none → q.typeFft2d = some "sequential".toList)) := by
  obtain ⟨a, b, c, e, f, g, h, i, j, k, l, m⟩ := p
  cases i <;> cases j <;> cases k <;> simp [plotParams, defaultFft]

/-! ### The directory of the run -/

/-- **C85**: a simulation which has to save its results and continue in a directory which does not exist is not constructed:
an error is raised. -/
theorem C85_missing_directory (y : Sys) (fs : Fs Dir) (p : Params) (tc : Bool) (hs : p.hasToSave = true)
    (hn : p.newDir = false) (dir : Path) (hp : p.pathRun = some dir) (hd : hasDir fs dir = false) :
    launch y fs p true tc = .error .notFound := by
  simp [launch, choosePath, hn, hp, hs, bind, Except.bind, initWrites, writes, write, hd]

theorem hasDir_of_content {fs : Fs Dir} {p : Path} {d : Dir} (h : content fs p = some d) : hasDir fs p = true := by
  by_contra hc
  rw [(RunDirs.content_none fs p).2 (by simpa using hc)] at h
  simp at h

theorem write_ok (fs : Fs Dir) (p : Path) (d : Dir) (h : content fs p = some d) (file : Str) (a : Act) :
    ∃ fs', write fs p file a = .ok fs' := by
  unfold write
  rw [if_pos (hasDir_of_content h)]
  exact ⟨_, rfl⟩

theorem writes_ok (p : Path) (l : List (Str × Act)) (fs : Fs Dir) (d : Dir) (h : content fs p = some d) :
    ∃ fs', writes p l fs = .ok fs' := by
  induction l generalizing fs d with
  | nil => exact ⟨fs, rfl⟩
  | cons e l ih =>
    obtain ⟨file, a⟩ := e
    obtain ⟨fs1, h1⟩ := write_ok fs p d h file a
    have hc := content_write fs fs1 p file a h1 p
    rw [h] at hc
    obtain ⟨fs2, h2⟩ := ih fs1 _ hc
    exact ⟨fs2, by simp only [writes, bind, Except.bind, h1, h2]⟩

theorem special_periods (l : List (Str × ℚ)) (f : Str) (h : ∀ o ∈ l, o.1 ≠ f) :
    ((l.filter fun o => o.2 ≠ 0).map fun o => (o.1, Act.append "init".toList)).filter (fun e => e.1 = f) = [] := by
  rw [List.filter_eq_nil_iff]
  intro e he
  rw [List.mem_map] at he
  obtain ⟨o, ho, rfl⟩ := he
  simpa using h o (List.mem_filter.1 ho).1

theorem effective_names (p : Params) (f : Str) (h : ∀ o ∈ p.periods, o.1 ≠ f) : ∀ o ∈ effectivePeriods p, o.1 ≠ f := by
  intro o ho
  unfold effectivePeriods at ho
  split_ifs at ho
  · exact h o ho
  · rw [List.mem_map] at ho
    obtain ⟨q, hq, rfl⟩ := ho
    exact h q hq

/-- The records that a simulation launched in the directory writes in the files which are not outputs. -/
theorem init_special (new tc : Bool) (periods : List (Str × ℚ)) (h : ∀ f ∈ special, ∀ o ∈ periods, o.1 ≠ f)
    (r : Str → List Str) :
    let w := fun f => ((initWrites true new tc periods).filter fun e => e.1 = f).foldl (fun r e => e.2.on r) (r f)
    w lockFile = (if r lockFile = [] then ["pid".toList] else r lockFile) ∧
    w stdoutFile = r stdoutFile ++ ["Program fluidsim".toList] ∧
    w "info_solver.xml".toList = r "info_solver.xml".toList ++ (if new then ["info".toList] else []) ∧
    w "params_simul.xml".toList = r "params_simul.xml".toList ++ (if new then ["params".toList] else []) ∧
    w forcingFile = (if tc ∧ r forcingFile = [] then ["seeds".toList] else r forcingFile) := by
  intro w
  have h1 := special_periods periods lockFile (h _ (by simp [special]))
  have h2 := special_periods periods stdoutFile (h _ (by simp [special]))
  have h3 := special_periods periods "info_solver.xml".toList (h _ (by simp [special]))
  have h4 := special_periods periods "params_simul.xml".toList (h _ (by simp [special]))
  have h5 := special_periods periods forcingFile (h _ (by simp [special]))
  have d12 : lockFile ≠ stdoutFile := by decide +kernel
  have d13 : lockFile ≠ "info_solver.xml".toList := by decide +kernel
  have d14 : lockFile ≠ "params_simul.xml".toList := by decide +kernel
  have d15 : lockFile ≠ forcingFile := by decide +kernel
  have d23 : stdoutFile ≠ "info_solver.xml".toList := by decide +kernel
  have d24 : stdoutFile ≠ "params_simul.xml".toList := by decide +kernel
  have d25 : stdoutFile ≠ forcingFile := by decide +kernel
  have d34 : "info_solver.xml".toList ≠ "params_simul.xml".toList := by decide +kernel
  have d35 : "info_solver.xml".toList ≠ forcingFile := by decide +kernel
  have d45 : "params_simul.xml".toList ≠ forcingFile := by decide +kernel
  simp only [w, initWrites, if_true, List.filter_append, h1, h2, h3, h4, h5]
  clear h1 h2 h3 h4 h5 w h
  generalize "info_solver.xml".toList = s4 at *
  generalize "params_simul.xml".toList = s5 at *
  generalize lockFile = s1 at *
  generalize stdoutFile = s2 at *
  generalize forcingFile = s3 at *
  cases new <;> cases tc <;>
    simp [List.filter_cons, d12, d13, d14, d15, d23, d24, d25, d34, d35, d45, d12.symm, d13.symm, d14.symm, d15.symm,
      d23.symm, d24.symm, d25.symm, d34.symm, d35.symm, d45.symm, Act.on]

/-- **C85**: a simulation which saves its results and continues in an existing directory is locked, and its description and
its parameters (the two xml files) are not written again; the log file has one more record. -/
theorem C85_continued_directory (y : Sys) (fs : Fs Dir) (p : Params) (tc : Bool) (hs : p.hasToSave = true)
    (hn : p.newDir = false) (dir : Path) (hp : p.pathRun = some dir) (d : Dir) (hd : content fs dir = some d)
    (hper : ∀ f ∈ special, ∀ o ∈ p.periods, o.1 ≠ f) :
    ∃ fs' s d', launch y fs p true tc = .ok (fs', s) ∧ s.path = dir ∧ content fs' dir = some d' ∧
      d' lockFile ≠ [] ∧ d' "info_solver.xml".toList = d "info_solver.xml".toList ∧
      d' "params_simul.xml".toList = d "params_simul.xml".toList ∧
      d' stdoutFile = d stdoutFile ++ ["Program fluidsim".toList] ∧
      (d forcingFile ≠ [] → d' forcingFile = d forcingFile) := by
  obtain ⟨fs', hw⟩ := writes_ok dir (initWrites true false tc (effectivePeriods p)) fs d hd
  have hc := writes_content dir _ fs fs' hw
  rw [hd] at hc
  obtain ⟨w1, w2, w3, w4, w5⟩ := init_special false tc (effectivePeriods p)
    (fun f hf => effective_names p f (hper f hf)) d
  beta_reduce at w1 w2 w3 w4 w5
  refine ⟨fs', ⟨true, dir, y.names.headD [], effectivePeriods p⟩, _, ?_, rfl, hc, ?_, ?_, ?_, ?_, ?_⟩
  · simp only [launch, choosePath, hn, hs, hp, bind, Except.bind, Bool.not_true, Bool.and_false, Bool.false_eq_true,
      if_false, hw]
  · beta_reduce
    rw [w1]
    split_ifs with h <;> simp [h]
  · beta_reduce
    rw [w3]; simp
  · beta_reduce
    rw [w4]; simp
  · exact w2
  · intro hne
    beta_reduce
    rw [w5, if_neg (fun h => hne h.2)]

/-- **C85**: a simulation which saves its results in a new directory describes itself there, once, and is locked. -/
theorem C85_new_directory (y : Sys) (fs : Fs Dir) (p : Params) (sameRes tc : Bool) (hs : p.hasToSave = true)
    (hn : p.newDir = true) (hper : ∀ f ∈ special, ∀ o ∈ p.periods, o.1 ≠ f) (n : Str)
    (hname : freshName fs (y.base ++ y.sub) y.names = some n) :
    ∃ fs' s d', launch y fs p sameRes tc = .ok (fs', s) ∧ s.path = y.base ++ y.sub ++ [n] ∧
      content fs' s.path = some d' ∧ d' lockFile = ["pid".toList] ∧ d' "info_solver.xml".toList = ["info".toList] ∧
      d' "params_simul.xml".toList = ["params".toList] ∧ d' stdoutFile = ["Program fluidsim".toList] ∧
      (d' forcingFile ≠ [] ↔ tc = true) := by
  set dir := y.base ++ y.sub ++ [n] with hdir
  set fs0 : Fs Dir := (dir, fun _ => []) :: fs with hfs0
  have hd : content fs0 dir = some fun _ => [] := by simp [fs0, content]
  obtain ⟨fs', hw⟩ := writes_ok dir (initWrites true true tc (effectivePeriods p)) fs0 _ hd
  have hc := writes_content dir _ fs0 fs' hw
  rw [hd] at hc
  obtain ⟨w1, w2, w3, w4, w5⟩ := init_special true tc (effectivePeriods p)
    (fun f hf => effective_names p f (hper f hf)) (fun _ => [])
  beta_reduce at w1 w2 w3 w4 w5
  refine ⟨fs', ⟨true, dir, n, effectivePeriods p⟩, _, ?_, rfl, hc, ?_, ?_, ?_, ?_, ?_⟩
  · simp only [launch, choosePath, newRun, hn, hs, hname, bind, Except.bind, if_true, ← hdir, ← hfs0, hw]
  · exact w1
  · exact w3
  · exact w4
  · exact w2
  · beta_reduce
    rw [w5]
    cases tc <;> simp

/-- **C85**: the last records are written before the directory is moved: the directory at its final path contains the records
due at the end, after those of the run. -/
theorem C85_last_records (y : Sys) (fs : Fs Dir) (s : Sim) (hs : s.hasToSave = true) (u : Due) (d : Dir)
    (hd : content fs s.path = some d) (hout : (text y.final).isPrefixOf (text s.path) = false) (f : Str)
    (hf : f ∉ special) (period : ℚ) (hper : (f, period) ∈ s.periods) (h0 : period ≠ 0) :
    ∃ fs' path d', finish y s u false fs = .ok (fs', path) ∧ content fs' path = some d' ∧ content fs' s.path = none ∧
      d' f = d f ++ (u.outputs.filter fun o => o.1 = f).map (·.2) := by
  obtain ⟨fs1, hw⟩ := writes_ok s.path (stepWrites s u) fs d hd
  have hsteps : steps s [u] fs = .ok fs1 := by
    simp only [steps, bind, Except.bind, hw]
  obtain ⟨d1, e1, e2⟩ := steps_content s hs f hf [u] fs fs1 hsteps d hd
  have hany : s.periods.any (fun q => q.1 = f ∧ q.2 ≠ 0) = true := by
    rw [List.any_eq_true]
    exact ⟨_, hper, by simpa using h0⟩
  rw [hany] at e2
  obtain ⟨i, fs', k1, -, -, k2, k3, -⟩ := RunDirs.C21_moved fs1 y.final y.sub s.name s.path d1 e1 hout
  refine ⟨fs', _, d1, ?_, k2, k3, by simpa using e2⟩
  simp only [finish, bind, Except.bind, hw, k1]

/-- Non-vacuity of `C85_continued_directory` and `C85_missing_directory`: names of outputs which are not special. -/
example : ∀ f ∈ special, ∀ o ∈ [("spatial_means.txt".toList, (1 : ℚ)), ("spectra.h5".toList, 0)], o.1 ≠ f := by
  decide +kernel

/-- Non-vacuity of `C85_last_records`: a directory of the scratch space, with an output due at the end. -/
example : ∃ fs' path d', finish ⟨["sim".toList], ["scratch".toList], [], []⟩
      ⟨true, ["scratch".toList, "a".toList], "a".toList, [("means".toList, 1)]⟩
      ⟨none, [("means".toList, "t2".toList)], none⟩ false
      [(["scratch".toList, "a".toList], fun n => if n = "means".toList then ["t1".toList] else [])] = .ok (fs', path) ∧
    path = ["sim".toList, "a".toList] ∧ content fs' path = some d' ∧
    d' "means".toList = ["t1".toList, "t2".toList] := by
  refine ⟨_, _, _, rfl, ?_, rfl, ?_⟩ <;> decide +kernel

end Verif.Loading
