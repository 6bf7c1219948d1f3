import Verif.Procs.LemmasCode

/-!
# C86: a run on several processes never blocks, and its results do not depend on the relative speeds

`Completes p Post` (`Spec.lean`): for every file system at the beginning and all relative speeds of the processes, the run ends, all
processes return, and the values satisfy `Post`. `NeverCompletes`: whatever the speeds, a process never ends.
-/

set_option linter.unusedSectionVars false

namespace Verif.Procs

open Function (update)

variable {n : ℕ} {S : Type} [Inhabited S]

/-- The mean over the domain is the sum over all processes divided by the number of points of all processes, and all processes get
it. -/
theorem C86_mean_space (arr : Fin n → List ℚ) :
    Completes (S := S) (fun i => meanSpace (arr i)) fun a => ∀ i,
      a i = ((List.finRange n).map fun j => (arr j).sum).sum / ((List.finRange n).map fun j => ((arr j).length : ℚ)).sum := by
  refine Safe.completes ?_
  simp only [meanSpace, Bind.bind, Pure.pure]
  refine (SafeI.allreduce sumNums fun i => .num (arr i).sum).bind ?_
  rintro _ rfl
  refine (SafeI.allreduce sumNums fun i => .num (arr i).length).bind ?_
  rintro _ rfl
  refine SafeI.ret _ ?_
  intro i
  simp [sumNums, Val.toQ, Function.comp_def]

example : Completes (n := 2) (S := Unit) (fun i => meanSpace (if i = 0 then [1, 2] else [6])) fun a => a 1 = 3 := by
  intro fs
  obtain ⟨h1, h2⟩ := C86_mean_space (n := 2) (S := Unit) (fun i => if i = 0 then [1, 2] else [6]) fs
  refine ⟨h1, fun c hc => (h2 c hc).imp id ?_⟩
  rintro ⟨a, ha, hp⟩
  refine ⟨a, ha, ?_⟩
  have := hp 1
  simp [List.finRange] at this
  show a 1 = 3
  rw [this]
  norm_num

/-- The horizontal means: process 0 gets, at each level, the sum of the contributions of the processes which have it divided by the
number of points of a level, and each process gets the levels which it has. -/
theorem C86_hmean [NeZero n] (starts nzs : Fin n → ℕ) (nz : ℕ) (nh : ℚ) (sums : Fin n → List ℚ) :
    Completes (S := S) (fun i => hmeanLocal starts nzs nz nh i (sums i)) fun a => ∀ i,
      a i = ((((List.range nz).map fun z => ((List.finRange n).map fun j =>
        if starts j ≤ z then ((sums j)[z - starts j]?).getD 0 else 0).sum / nh)).drop (starts i)).take (nzs i) := by
  refine Safe.completes ?_
  have hloop : Safe (S := S) (fun g => g 0 = (List.range nz).map fun z => ((List.finRange n).map fun j =>
      if starts j ≤ z then ((sums j)[z - starts j]?).getD 0 else 0).sum)
      fun i => Prog.loop (List.finRange n) (hmeanBody starts i (sums i)) (List.replicate nz 0) := by
    refine SafeI.loop (fun done g => g 0 = (List.range nz).map fun z => (done.map fun j =>
      if starts j ≤ z then ((sums j)[z - starts j]?).getD 0 else 0).sum) (List.finRange n)
      (fun i => hmeanBody starts i (sums i)) ?_ _ ?_
    · intro done r rest g _ hg
      have hadd : addAt (g 0) (starts r) (sums r) = (List.range nz).map fun z => ((done ++ [r]).map fun j =>
          if starts j ≤ z then ((sums j)[z - starts j]?).getD 0 else 0).sum := by
        rw [hg]
        apply List.ext_getElem
        · simp [addAt]
        · intro z h1 h2
          simp only [addAt, List.getElem_map, List.getElem_zipIdx, List.getElem_range, List.map_append, List.map_cons,
            List.map_nil, List.sum_append, List.sum_cons, List.sum_nil, add_zero, zero_add]
          split_ifs <;> simp
      by_cases hr : r = 0
      · subst hr
        have e : (fun i => hmeanBody (S := S) starts i (sums i) 0 (g i))
            = fun i => .ret (if i = 0 then addAt (g 0) (starts 0) (sums 0) else g i) := by
          funext i
          by_cases hi : i = 0
          · subst hi; simp [hmeanBody]
          · simp [hmeanBody, hi]
        rw [e]
        refine SafeI.ret _ ?_
        simpa using hadd
      · refine SafeI.oneMsg _ r 0 (42 * r) (.arr (sums r)) (g r) (fun d => addAt (g 0) (starts r) d.toArr) g hr ?_ ?_ ?_ ?_
        · simp [hmeanBody, hr]
        · simp [hmeanBody, hr]
        · intro l h1 h2
          simp [hmeanBody, hr, h1, h2]
        · simp only [Ne.symm hr, if_false, if_true, Val.toArr]
          exact hadd
    · apply List.ext_getElem <;> simp
  have hmean : Safe (S := S) (fun g => g 0 = some ((List.range nz).map fun z => ((List.finRange n).map fun j =>
      if starts j ≤ z then ((sums j)[z - starts j]?).getD 0 else 0).sum / nh))
      fun i => computeHmean starts nz nh i (sums i) := by
    refine hloop.bind ?_
    intro g hg
    refine SafeI.ret _ ?_
    simp [hg]
  refine hmean.bind ?_
  intro g hg
  refine (SafeI.bcast 0 fun i => match g i with | some l => .arr l | none => .unit).bind ?_
  rintro _ rfl
  refine SafeI.ret _ ?_
  intro i
  simp [hg, Val.toArr]

example : Completes (n := 2) (S := Unit) (fun i => hmeanLocal (fun j => j) (fun _ => 1) 2 2 i (if i = 0 then [4] else [6]))
    fun a => a 0 = [2] ∧ a 1 = [3] := by
  intro fs
  obtain ⟨h1, h2⟩ := C86_hmean (n := 2) (S := Unit) (fun j => j) (fun _ => 1) 2 2 (fun i => if i = 0 then [4] else [6]) fs
  refine ⟨h1, fun c hc => (h2 c hc).imp id ?_⟩
  rintro ⟨a, ha, hp⟩
  refine ⟨a, ha, ?_, ?_⟩
  · rw [hp 0]; decide +kernel
  · rw [hp 1]; decide +kernel

/-- The values of the modes on process 0 are the values of their owners, in order. -/
theorem C86_collect_modes [NeZero n] (owners : List (Fin n)) (value : Fin n → ℕ → Val) :
    Completes (S := S) (fun i => collectModes owners i (value i)) fun a =>
      a 0 = owners.zipIdx.map fun o => value o.1 o.2 := by
  refine Safe.completes ?_
  refine (SafeI.loop (fun done acc => acc 0 = done.map fun o => value o.1 o.2) owners.zipIdx
    (fun i o acc => (collectOne i o.1 o.2 (value i o.2)).bind fun v => .ret (acc ++ [v])) ?_ (fun _ => []) (by simp))
  intro done o rest acc _ h
  refine (SafeI.collectOne o.1 o.2 fun i => value i o.2).bind ?_
  rintro _ rfl
  refine SafeI.ret _ ?_
  simp [h]

example : Completes (n := 3) (S := Unit) (fun i => collectModes [2, 0, 2, 1] i fun ik => .num (10 * i + ik))
    fun a => a 0 = [.num 20, .num 1, .num 22, .num 13] := by
  intro fs
  obtain ⟨h1, h2⟩ := C86_collect_modes (n := 3) (S := Unit) [2, 0, 2, 1] (fun i ik => .num (10 * i + ik)) fs
  refine ⟨h1, fun c hc => (h2 c hc).imp id ?_⟩
  rintro ⟨a, ha, hp⟩
  exact ⟨a, ha, hp.trans (by decide +kernel)⟩

/-- The coarse array of process 0 is put in the arrays of all processes: each row goes to its place and nothing else changes. -/
theorem C86_put_coarse [NeZero n] (owner : ℕ → Fin n × ℕ) (nk : ℕ) (coarse : ℕ → Val) (rows : Fin n → ℕ → Val)
    (hinj : ∀ k < nk, ∀ l < nk, owner k = owner l → k = l) :
    Completes (S := S) (fun i => putCoarse owner nk coarse i (rows i)) fun a =>
      (∀ k < nk, a (owner k).1 (owner k).2 = coarse k) ∧ ∀ i l, (∀ k < nk, owner k ≠ (i, l)) → a i l = rows i l := by
  refine Safe.completes ?_
  have main := SafeI.loop (I := fun _ => True) (S := S) (fun done (a : Fin n → ℕ → Val) => (∀ k ∈ done, a (owner k).1 (owner k).2 = coarse k) ∧
      ∀ i l, (∀ k ∈ done, owner k ≠ (i, l)) → a i l = rows i l) (List.range nk)
    (fun i k rows => (distributeOne i (owner k).1 k (if i = 0 then coarse k else .unit)).bind fun v =>
      .ret (if i = (owner k).1 then Function.update rows (owner k).2 v else rows)) ?_ rows (by simp)
  · refine main.weaken ?_
    rintro a ⟨h1, h2⟩
    exact ⟨fun k hk => h1 k (by simpa using hk), fun i l h => h2 i l fun k hk => h k (by simpa using hk)⟩
  · intro done k rest a e ⟨h1, h2⟩
    refine (SafeI.distributeOne (owner k).1 k fun i => if i = 0 then coarse k else .unit).bind ?_
    intro v hv
    simp only [if_true] at hv
    refine SafeI.ret _ ⟨?_, ?_⟩
    · intro m hm
      rcases List.mem_append.1 hm with hm | hm
      · have hmd := hm
        by_cases hmk : owner m = owner k
        · exfalso
          have hnd := List.nodup_range (n := nk)
          rw [e] at hnd
          have hmem : ∀ x ∈ done ++ k :: rest, x < nk := by
            intro x hx
            rw [← e] at hx
            simpa using hx
          have : m = k := hinj m (hmem m (by simp [hmd])) k (hmem k (by simp)) hmk
          subst this
          rw [List.nodup_append] at hnd
          exact hnd.2.2 m hmd m (by simp) rfl
        · by_cases hp : (owner m).1 = (owner k).1
          · rw [if_pos hp, Function.update_of_ne, h1 m hmd]
            intro h
            exact hmk (Prod.ext hp h)
          · rw [if_neg hp, h1 m hmd]
      · simp only [List.mem_singleton] at hm
        subst hm
        simp [hv]
    · intro i l h
      have hk := h k (by simp)
      by_cases hp : i = (owner k).1
      · rw [if_pos hp, Function.update_of_ne, h2 i l fun m hm => h m (by simp [hm])]
        intro hl
        exact hk (Prod.ext hp.symm hl.symm)
      · rw [if_neg hp, h2 i l fun m hm => h m (by simp [hm])]

example : ∀ k < 4, ∀ l < 4, (fun k : ℕ => ((Fin.ofNat 2 (k / 2), k % 2) : Fin 2 × ℕ)) k = (fun k : ℕ => (Fin.ofNat 2 (k / 2), k % 2)) l
    → k = l := by decide

/-- Where a mode is, in 3D: with the same memory on all processes, all of them get the first process which has the mode with the
local indices given by this process, or all of them raise an error; and their memories remain the same. -/
theorem C86_where (holds : Fin n → K3 → Bool) (loc : Fin n → K3 → List ℚ) (k : K3) (cache : List (K3 × Fin n × List ℚ)) :
    Completes (S := S) (fun i => whereIs holds loc i k cache) fun a => ∃ cache', ∀ i, a i =
      (match cache.lookup k with
      | some r => some r
      | none => ((List.finRange n).find? fun j => holds j k).map fun r => (r, loc r k), cache') := by
  refine (Safe.completes (SafeI.whereIs holds loc k cache)).imp ?_
  intro a h
  cases hc : cache.lookup k with
  | some r => exact ⟨cache, fun i => by rw [h i, hc]⟩
  | none =>
    cases hl : located holds loc k with
    | none => exact ⟨cache, fun i => by rw [h i, hc]; simp only [hl]; unfold located at hl; rw [hl]⟩
    | some r => exact ⟨(k, r) :: cache, fun i => by rw [h i, hc]; simp only [hl]; unfold located at hl; rw [hl]⟩

/-- The memories must be the same: a process which asks for a mode while another process knows where it is never ends. This is why
the code keeps all answers ("cannot use lru_cache because it can lead to blocking with MPI"). -/
theorem C86_where_memories (holds : Fin n → K3 → Bool) (loc : Fin n → K3 → List ℚ) (k : K3)
    (cache : Fin n → List (K3 × Fin n × List ℚ)) (i j : Fin n) (hi : (cache i).lookup k = none)
    (hj : ((cache j).lookup k).isSome) (fs : S) : NeverCompletes (fun i => whereIs holds loc i k (cache i)) fs := by
  obtain ⟨r, hr⟩ := Option.isSome_iff_exists.1 hj
  refine stuck (r := j) (i := i) .allgather ?_ ?_ rfl
  · simp [whereIs, hr, Ended]
  · simp only [whereIs, hi, Prog.allgather, Prog.bind]
    exact ⟨_, _, rfl⟩

example : ([] : List (K3 × Fin 2 × List ℚ)).lookup (0, 0, 1) = none ∧
    (([((0, 0, 1), 1, [0, 0, 0])] : List (K3 × Fin 2 × List ℚ)).lookup (0, 0, 1)).isSome := by decide +kernel

/-- The coarse array gathered by process 0 in 3D: when every mode belongs to a process, process 0 gets for each of them the value
found by its first owner at its local indices; when a mode belongs to no process, all processes raise the error. -/
theorem C86_coarse_seq3 [NeZero n] (holds : Fin n → K3 → Bool) (loc : Fin n → K3 → List ℚ) (ks : List (ℕ × K3))
    (value : Fin n → List ℚ → Val) :
    Completes (S := S) (fun i => coarseSeq3 holds loc ks i (value i)) fun a =>
      ((∀ k ∈ ks, ∃ j, holds j k.2 = true) → (∀ i, (a i).isSome) ∧ ∃ l, a 0 = some l ∧ l.length = ks.length ∧
        ∀ (m : ℕ) (k : ℕ × K3), ks[m]? = some k → ∃ j, (List.finRange n).find? (fun j => holds j k.2) = some j ∧
          l[m]? = some (value j (loc j k.2))) ∧
      ((∃ k ∈ ks, ∀ j, holds j k.2 = false) → ∀ i, a i = none) := by
  refine Safe.completes ?_
  have main := SafeI.loop (I := fun _ => True) (S := S) (fun done (st : Fin n → Option (List Val) × List (K3 × Fin n × List ℚ)) =>
      ∃ cache, (∀ i, (st i).2 = cache) ∧ (∀ k r, cache.lookup k = some r → located holds loc k = some r) ∧
      if ∀ k ∈ done, (located holds loc k.2).isSome then
        (∀ i, (st i).1.isSome) ∧
        (st 0).1 = some (done.map fun k => match located holds loc k.2 with | some (j, l) => value j l | none => .unit)
      else ∀ i, (st i).1 = none) ks
    (fun i k st =>
      match st with
      | (none, cache) => .ret (none, cache)
      | (some acc, cache) =>
        (whereIs holds loc i k.2 cache).bind fun w =>
          match w.1 with
          | none => .ret (none, w.2)
          | some (r, l) => (collectOne i r k.1 (value i l)).bind fun v => .ret (some (acc ++ [v]), w.2)) ?_
    (fun _ => (some [], [])) ⟨[], fun _ => rfl, by simp, by simp⟩
  · refine (main.bind (g := fun i st => .ret st.1) (Post' := fun a => if ∀ k ∈ ks, (located holds loc k.2).isSome then
        (∀ i, (a i).isSome) ∧
        a 0 = some (ks.map fun k => match located holds loc k.2 with | some (j, l) => value j l | none => .unit)
      else ∀ i, a i = none) ?_).weaken ?_
    · rintro st ⟨cache, -, -, h⟩
      exact SafeI.ret _ h
    · intro a h
      have hloc : ∀ k : ℕ × K3, (located holds loc k.2).isSome ↔ ∃ j, holds j k.2 = true := by
        intro k
        simp [located, List.find?_isSome]
      constructor
      · intro hk
        rw [if_pos fun k hk' => (hloc k).2 (hk k hk')] at h
        refine ⟨h.1, _, h.2, by simp, ?_⟩
        intro m k hm
        obtain ⟨r, hr⟩ := Option.isSome_iff_exists.1 ((hloc k).2 (hk k (List.mem_of_getElem? hm)))
        have hr' := hr
        simp only [located, Option.map_eq_some_iff] at hr'
        obtain ⟨j, hj, e⟩ := hr'
        refine ⟨j, hj, ?_⟩
        rw [List.getElem?_map, hm]
        simp [hr, ← e]
      · rintro ⟨k, hk, hn⟩
        rw [if_neg] at h
        · exact h
        · intro hall
          obtain ⟨j, hj⟩ := (hloc k).1 (hall k hk)
          rw [hn j] at hj
          exact absurd hj (by simp)
  · rintro done k rest st - ⟨cache, hc, hok, h⟩
    by_cases hall : ∀ k ∈ done, (located holds loc k.2).isSome
    · rw [if_pos hall] at h
      obtain ⟨hsome, h0⟩ := h
      choose acc hacc using fun i => Option.isSome_iff_exists.1 (hsome i)
      have est : ∀ i, st i = (some (acc i), cache) := fun i => Prod.ext (hacc i) (hc i)
      simp only [est]
      refine (SafeI.whereIs holds loc k.2 cache).bind ?_
      intro w hw
      have hw' : ∃ cache', (∀ k r, cache'.lookup k = some r → located holds loc k = some r) ∧
          w = fun _ => (located holds loc k.2, cache') := by
        cases hl : cache.lookup k.2 with
        | some r =>
          refine ⟨cache, hok, funext fun i => ?_⟩
          rw [hw i, hl, hok _ _ hl]
        | none =>
          cases hl2 : located holds loc k.2 with
          | none =>
            refine ⟨cache, hok, funext fun i => ?_⟩
            rw [hw i, hl, hl2]
          | some r =>
            refine ⟨(k.2, r) :: cache, ?_, funext fun i => ?_⟩
            · intro k' r' hk'
              rw [List.lookup_cons] at hk'
              by_cases e : k' = k.2
              · subst e
                simp at hk'
                rw [hl2, hk']
              · have e' : (k' == k.2) = false := by simpa using e
                rw [e'] at hk'
                exact hok _ _ hk'
            · rw [hw i, hl, hl2]
      obtain ⟨cache', hok', rfl⟩ := hw'
      cases hl : located holds loc k.2 with
      | none =>
        refine SafeI.ret _ ⟨cache', fun _ => rfl, hok', ?_⟩
        rw [if_neg]
        · intro i; rfl
        · intro h
          have := h k (by simp)
          simp [hl] at this
      | some r =>
        obtain ⟨j, l⟩ := r
        refine (SafeI.collectOne j k.1 fun i => value i l).bind ?_
        rintro _ rfl
        refine SafeI.ret _ ⟨cache', fun _ => rfl, hok', ?_⟩
        rw [if_pos]
        · refine ⟨fun i => rfl, ?_⟩
          rw [hacc 0] at h0
          simp only [Option.some.injEq] at h0
          simp [h0, hl]
        · intro k' hk'
          rcases List.mem_append.1 hk' with h1 | h1
          · exact hall k' h1
          · simp only [List.mem_singleton] at h1
            subst h1
            simp [hl]
    · rw [if_neg hall] at h
      have est : ∀ i, st i = (none, cache) := fun i => Prod.ext (h i) (hc i)
      simp only [est]
      refine SafeI.ret _ ⟨cache, fun _ => rfl, hok, ?_⟩
      rw [if_neg]
      · intro i; rfl
      · intro h'
        exact hall fun k' hk' => h' k' (by simp [hk'])

example : Completes (n := 2) (S := Unit) (fun i => coarseSeq3 (fun j k => decide (k.1 = j.val)) (fun _ k => [k.2.1, k.2.2])
    [(0, (1, 0, 0)), (1, (0, 0, 1)), (0, (1, 0, 0))] i fun l => .arr (i.val :: l))
    fun a => a 0 = some [.arr [1, 0, 0], .arr [0, 0, 1], .arr [1, 0, 0]] := by
  refine (C86_coarse_seq3 _ _ _ _).imp ?_
  intro a h
  obtain ⟨-, l, h0, hlen, hl⟩ := h.1 (by decide)
  obtain ⟨j0, e0, h0'⟩ := hl 0 _ rfl
  obtain ⟨j1, e1, h1'⟩ := hl 1 _ rfl
  obtain ⟨j2, e2, h2'⟩ := hl 2 _ rfl
  have c0 : j0 = 1 := by clear h0'; revert e0; revert j0; decide
  have c1 : j1 = 0 := by clear h1'; revert e1; revert j1; decide
  have c2 : j2 = 1 := by clear h2'; revert e2; revert j2; decide
  subst c0 c1 c2
  rw [h0]
  match l, hlen with
  | [x, y, z], _ =>
    simp at h0' h1' h2'
    simp [h0', h1', h2']

end Verif.Procs
