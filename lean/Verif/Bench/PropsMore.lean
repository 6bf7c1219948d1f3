import Verif.Bench.Props

/-!
# C84: names of the solvers with the name of the package, time of the Fourier transforms
-/

namespace Verif.Bench

theorem dropWhile_dot (w : List Char) (h : '.' ∉ w) (t : List Char) :
    (w ++ t).dropWhile (· ≠ '.') = t.dropWhile (· ≠ '.') := by
  induction w with
  | nil => rfl
  | cons c w ih =>
    simp only [List.mem_cons, not_or] at h
    rw [List.cons_append, List.dropWhile_cons_of_pos (by simpa using Ne.symm h.1), ih h.2]

/-- **C84**: a solver given with the name of the package before a dot: the results are those for what follows the dot. -/
theorem C84_load_package (files : List Result) (w key host : List Char) (hw : '.' ∉ w)
    (hk : ¬ "fluidsim".toList <+: key) :
    loadBench files ("fluidsim".toList ++ w ++ '.' :: key) host = loadBench files key host := by
  have h1 : "fluidsim".toList.isPrefixOf ("fluidsim".toList ++ w ++ '.' :: key) = true := by
    rw [List.isPrefixOf_iff_prefix]
    exact ⟨w ++ '.' :: key, by simp⟩
  have h2 : "fluidsim".toList.isPrefixOf key = false := by
    rw [Bool.eq_false_iff]
    exact fun h => hk (List.isPrefixOf_iff_prefix.1 h)
  have h3 : afterDot ("fluidsim".toList ++ w ++ '.' :: key) = .ok key := by
    unfold afterDot
    rw [dropWhile_dot _ (by
      rw [List.mem_append, not_or]
      exact ⟨by decide +kernel, hw⟩)]
    simp
  unfold loadBench
  rw [if_pos h1, h2, h3]
  rfl

/-- **C84**: the name of the package alone, without a dot, is an error. -/
theorem C84_load_package_only (files : List Result) (w host : List Char) (hw : '.' ∉ w) :
    loadBench files ("fluidsim".toList ++ w) host = .error .index := by
  have h1 : "fluidsim".toList.isPrefixOf ("fluidsim".toList ++ w) = true := by
    rw [List.isPrefixOf_iff_prefix]
    exact ⟨w, rfl⟩
  have h3 : afterDot ("fluidsim".toList ++ w) = .error .index := by
    unfold afterDot
    have := dropWhile_dot ("fluidsim".toList ++ w) (by
      rw [List.mem_append, not_or]
      exact ⟨by decide +kernel, hw⟩) []
    rw [List.append_nil] at this
    rw [this]
    rfl
  unfold loadBench
  rw [if_pos h1, h3]
  rfl

/-- **C84** (finding): the full name of the module of a solver, `fluidsim.solvers.ns2d.solver`, never loads its results. -/
theorem C84_load_module_violated (rest host : List Char) :
    loadBench [⟨"ns2d".toList, rest, host⟩] "fluidsim.solvers.ns2d.solver".toList "any".toList = .ok [] := by
  have e : "fluidsim.solvers.ns2d.solver".toList = "fluidsim".toList ++ [] ++ '.' :: "solvers.ns2d.solver".toList := by
    decide +kernel
  rw [e, C84_load_package _ _ _ _ (by simp) (by decide +kernel)]
  obtain ⟨l, hl, h⟩ := C84_load_iff [⟨"ns2d".toList, rest, host⟩] "solvers.ns2d.solver".toList "any".toList
    (by decide +kernel) (by decide +kernel)
  have hnot : ¬ "solvers.ns2d.solver".toList <+: "ns2d".toList := by decide +kernel
  have h0 := (h ⟨"ns2d".toList, rest, host⟩ (by simp)).not.2 (fun hc => hnot hc.1)
  have hf : "fluidsim".toList.isPrefixOf "solvers.ns2d.solver".toList = false := by decide +kernel
  have e2 : loadBench [⟨"ns2d".toList, rest, host⟩] "solvers.ns2d.solver".toList "any".toList
      = .ok ([(⟨"ns2d".toList, rest, host⟩ : Result)].filter fun r =>
        globMatch "solvers.ns2d.solver".toList r.name && ("any".toList = "any".toList || "any".toList.isPrefixOf r.hostname)) := by
    unfold loadBench
    rw [hf]
    rfl
  have hl' := Except.ok.inj (e2.symm.trans hl)
  rw [← hl'] at h0
  refine e2.trans (congrArg Except.ok (List.filter_eq_nil_iff.2 ?_))
  intro r hr hp
  rw [List.mem_singleton] at hr
  subst hr
  exact h0 (List.mem_filter.2 ⟨List.mem_singleton.2 rfl, hp⟩)

/-- A call comes from a function `fft_as_arg` (by the name of the function or by its file). -/
def Hidden (c : List Char × List Char × ℚ) : Prop :=
  "fft_as_arg".toList <:+: c.2.1 ∨ "fft_as_arg".toList <:+: c.1

/-- **C84**: in the kind of the Fourier transforms, a function called only by functions `fft_as_arg` counts for nothing (its
time is counted with them), and a function never called by them counts for the time of all its calls. -/
theorem C84_profile_fft (d : Char) (f : Func ℚ) :
    ((∀ c ∈ f.callers, Hidden c) → timeIn d ['f', 'f', 't', d, 'd'] f = 0) ∧
    ((∀ c ∈ f.callers, ¬ Hidden c) → timeIn d ['f', 'f', 't', d, 'd'] f = (f.callers.map (·.2.2)).sum) := by
  unfold Hidden timeIn isIn
  generalize "fft_as_arg".toList = g
  rw [if_pos rfl]
  constructor
  · intro h
    rw [List.filter_eq_nil_iff.2]
    · rfl
    · intro c hc
      rcases h c hc with h | h <;> simp [h]
  · intro h
    rw [List.filter_eq_self.2]
    intro c hc
    have := h c hc
    simp only [not_or] at this
    simp [this]

/-- Non-vacuity: a caller of each sort. -/
example : Hidden ("operators2d.py".toList, "fft_as_arg".toList, 1) ∧ ¬ Hidden ("solver.py".toList, "step".toList, 1) := by
  unfold Hidden
  decide +kernel

end Verif.Bench
