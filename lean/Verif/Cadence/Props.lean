import Verif.Cadence.Lemmas
import Mathlib.Tactic.NormNum

/-!
# C15: periodic outputs are neither lost nor duplicated

`outs` is the list of the output objects of a simulation, `times` the list of the times at
which `output.one_time_step` is called.
-/

set_option linter.unusedSectionVars false

namespace Verif.Cadence

variable {K : Type*} [Field K] [LinearOrder K] [IsStrictOrderedRing K] [FloorRing K]

/-- C15, difference test: whatever the other outputs and whatever the times of the calls,
an output with period `p > 0` saves exactly at the first call at which one period has
elapsed since its last save, then at the first call at which one period has elapsed since
that one, and so on. -/
theorem C15_diff_saves_at_first_due_call (outs : List (Out K)) (times : List K) (i : ℕ)
    (hi : i < outs.length) (hk : outs[i].kind = .diff) (hp : 0 < outs[i].period) :
    ∃ (h : i < (run true outs times).length) (l : List K),
      ((run true outs times)[i]).saved = outs[i].saved ++ l ∧
      Selects (PeriodElapsed outs[i].period) outs[i].tLast times l := by
  have hl : i < (run true outs times).length := by rw [run_true]; simpa using hi
  obtain ⟨l, h1, h2⟩ := follow_selects outs[i] hp.ne' times
  refine ⟨hl, l, ?_, ?_⟩
  · simp only [run_true, List.getElem_map]; exact h1
  · rw [hk] at h2; exact h2.congr (due_diff _)

/-- C15, floor test: an output with period `p > 0` saves exactly at the first call that is
(up to the tolerance 1e-15 of the code) in a later period bin than the last save, and so
on. -/
theorem C15_floor_saves_at_first_due_call (outs : List (Out K)) (times : List K) (i : ℕ)
    (hi : i < outs.length) (hk : outs[i].kind = .floor) (hp : 0 < outs[i].period) :
    ∃ (h : i < (run true outs times).length) (l : List K),
      ((run true outs times)[i]).saved = outs[i].saved ++ l ∧
      Selects (LaterBinTol outs[i].period (1 / 10 ^ 15)) outs[i].tLast times l := by
  have hl : i < (run true outs times).length := by rw [run_true]; simpa using hi
  obtain ⟨l, h1, h2⟩ := follow_selects outs[i] hp.ne' times
  refine ⟨hl, l, ?_, ?_⟩
  · simp only [run_true, List.getElem_map]; exact h1
  · rw [hk] at h2; exact h2.congr (due_floor _ hp)

/-- Both theorems apply to a simulation with two outputs. -/
example : ∃ (outs : List (Out ℚ)), outs.length = 2 ∧
    (run true outs [0, 1/2, 1, 3/2, 5/2]).map Out.saved = [[0, 1, 5/2], [1/2, 1, 3/2, 5/2]] :=
  ⟨[mkOut .diff .record 1 0, mkOut .floor .silent (1/2) 0], by decide +kernel,
    by decide +kernel⟩

/-- C15: nothing is saved when the simulation does not save, whatever the periods. -/
theorem C15_no_save_without_has_to_save (outs : List (Out K)) (times : List K) :
    run false outs times = outs := run_false outs times

/-- C15: an output with period 0 saves nothing during the run. -/
theorem C15_no_save_with_zero_period (b : Bool) (outs : List (Out K)) (times : List K) (i : ℕ)
    (hi : i < outs.length) (hp : outs[i].period = 0) :
    ∃ (h : i < (run b outs times).length), ((run b outs times)[i]).saved = outs[i].saved := by
  cases b with
  | false => simp only [run_false]; exact ⟨hi, trivial⟩
  | true =>
    refine ⟨by rw [run_true]; simpa using hi, ?_⟩
    simp only [run_true, List.getElem_map]
    rw [follow_zero _ hp]

example : (run true [(⟨.diff, 0, 0, []⟩ : Out ℚ)] [0, 1, 2]).map Out.saved = [[]] := by
  decide +kernel

/-- A single output of the simulation. -/
theorem run_single (o : Out K) (times : List K) : run true [o] times = [follow o times] := by
  simp [run_true]

/-- C15, difference test: two successive saves are at least one period apart (the record
made at construction included). -/
theorem C15_diff_spacing (p t0 : K) (hp : 0 < p) (times : List K) :
    ∃ o, run true [mkOut .diff .record p t0] times = [o] ∧
      List.IsChain (fun a b => p ≤ b - a) o.saved := by
  refine ⟨_, run_single _ _, ?_⟩
  obtain ⟨l, h1, h2⟩ := follow_selects (mkOut .diff .record p t0) hp.ne' times
  rw [h1]
  have := (h2.congr (due_diff _)).chain
  exact this

/-- C15, difference test: over a run from `t0` to `T` there are at most `(T - t0)/p + 1`
saves. -/
theorem C15_diff_count (p t0 : K) (hp : 0 < p) (times : List K) (ht : TimesFrom t0 times) :
    ∃ o, run true [mkOut .diff .record p t0] times = [o] ∧
      (o.saved.length : K) ≤ ((t0 :: times).getLast (by simp) - t0) / p + 1 := by
  refine ⟨_, run_single _ _, ?_⟩
  obtain ⟨l, h1, h2⟩ := follow_selects (mkOut .diff .record p t0) hp.ne' times
  rw [h1]
  have h3 := h2.congr (due_diff _)
  have hc := chain_count (fun x => x / p) (fun a b (h : p ≤ b - a) => by
    have : 1 ≤ (b - a) / p := by rwa [le_div_iff₀ hp, one_mul]
    have e : b / p = a / p + (b - a) / p := by ring
    linarith) h3.chain
  have hl := h3.last_le ht
  have hdiv : ∀ x y : K, x ≤ y → x / p ≤ y / p := fun x y h => (div_le_div_iff_of_pos_right hp).2 h
  have := hdiv _ _ hl
  simp only [mkOut] at hc this ⊢
  simp only [List.singleton_append, List.length_cons, Nat.cast_add, Nat.cast_one]
  rw [sub_div]
  linarith

/-- C15, difference test: if successive calls are at most `d` apart, every window of length
`p + d` within the run contains a save. -/
theorem C15_diff_no_gap (p t0 d : K) (hp : 0 < p) (hd : 0 ≤ d) (times : List K)
    (ht : TimesFrom t0 times) (hg : GapsAtMost d t0 times) :
    ∃ o, run true [mkOut .diff .record p t0] times = [o] ∧
      ∀ τ, t0 ≤ τ → τ + (p + d) ≤ (t0 :: times).getLast (by simp) →
        ∃ s ∈ o.saved, τ ≤ s ∧ s < τ + (p + d) := by
  refine ⟨_, run_single _ _, ?_⟩
  obtain ⟨l, h1, h2⟩ := follow_selects (mkOut .diff .record p t0) hp.ne' times
  rw [h1]
  have h3 := h2.congr (due_diff _)
  intro τ hτ hw
  obtain ⟨s, hs, ha, hb⟩ := h3.window p d hd (fun a b h => not_le.1 h) t0 le_rfl
    (by simpa [mkOut] using hp) hg ht τ hτ (by rw [add_assoc]; exact hw)
  exact ⟨s, by simp [hs], ha, by rw [← add_assoc]; exact hb⟩

/-- The hypotheses of the three theorems are met by a run with irregular steps. -/
example : TimesFrom (0 : ℚ) [0, 3/10, 9/10, 6/5, 17/10, 2] ∧
    GapsAtMost (3/5 : ℚ) 0 [0, 3/10, 9/10, 6/5, 17/10, 2] ∧
    (run true [mkOut .diff .record 1 (0 : ℚ)] [0, 3/10, 9/10, 6/5, 17/10, 2]).map Out.saved
      = [[0, 6/5]] := by
  refine ⟨?_, ?_, by decide +kernel⟩ <;> simp [TimesFrom, GapsAtMost] <;> norm_num

/-- C15, floor test, full statement refuted: with period 1 and steps of (about) 1/10, the
saves at `1 - 10^-16` and `1 - 10^-16 + 1/10` are made for the same period boundary: the
tolerance is added to the current time but not to the time of the last save. (In floating
point ten steps of 0.1 lead to 0.9999999999999999.) Two of the three saves fall in the bin
`[0, 1)`. -/
theorem C15_floor_bins_violated :
    ∃ (p t0 : ℚ) (times : List ℚ), 0 < p ∧ TimesFrom t0 times ∧
      ∃ o, run true [mkOut .floor .record p t0] times = [o] ∧
        ¬ List.IsChain (LaterBin p) o.saved ∧
        o.saved = [0, 1 - 1 / 10 ^ 16, 1 - 1 / 10 ^ 16 + 1 / 10] := by
  refine ⟨1, 0, [0, 1/2, 1 - 1/10^16, 1 - 1/10^16 + 1/10, 3/2], by norm_num, ?_, _,
    run_single _ _, ?_, by decide +kernel⟩
  · simp [TimesFrom]; norm_num
  · have e : (follow (mkOut .floor .record 1 (0 : ℚ))
        [0, 1/2, 1 - 1/10^16, 1 - 1/10^16 + 1/10, 3/2]).saved
        = [0, 1 - 1/10^16, 1 - 1/10^16 + 1/10] := by decide +kernel
    rw [e]
    intro h
    obtain ⟨n, h1, h2⟩ := (List.isChain_cons_cons.1 h).1
    have a : (0 : ℤ) < n := by
      have : (0 : ℚ) < n := by simpa using h1
      exact_mod_cast this
    have b : n < 1 := by
      have : (n : ℚ) < 1 := by
        have : (n : ℚ) ≤ 1 - 1/10^16 := by simpa using h2
        have h3 : (0 : ℚ) < 1 / 10 ^ 16 := by norm_num
        linarith
      exact_mod_cast this
    omega

/-- C15, floor test: successive saves are in different period bins, as long as no call is
made within the tolerance just before a multiple of the period.
Missing with respect to the full statement: that side condition (see
`C15_floor_bins_violated`). -/
theorem C15_floor_bins_partial (p t0 : K) (hp : 0 < p) (times : List K)
    (hz : ∀ t ∈ times, ∀ n : ℤ, ¬ (t < n * p ∧ n * p ≤ t + 1 / 10 ^ 15)) :
    ∃ o, run true [mkOut .floor .record p t0] times = [o] ∧
      List.IsChain (LaterBin p) o.saved := by
  refine ⟨_, run_single _ _, ?_⟩
  obtain ⟨l, h1, h2⟩ := follow_selects (mkOut .floor .record p t0) hp.ne' times
  rw [h1]
  have h3 := h2.congr (due_floor _ hp)
  have hall : ∀ x ∈ l, ∀ n : ℤ, ¬ (x < n * p ∧ n * p ≤ x + 1 / 10 ^ 15) :=
    fun x hx => hz x (h3.subset.subset hx)
  have hc := h3.chain
  show List.IsChain (LaterBin p) (t0 :: l)
  change List.IsChain (LaterBinTol p eps) (t0 :: l) at hc
  clear h1 h2 h3
  generalize t0 = a at hc
  induction l generalizing a with
  | nil => simp
  | cons b l ih =>
    rw [List.isChain_cons_cons] at hc ⊢
    refine ⟨?_, ih (fun x hx => hall x (by simp [hx])) b hc.2⟩
    obtain ⟨n, hn1, hn2⟩ := hc.1
    refine ⟨n, hn1, ?_⟩
    by_contra hlt
    exact hall b (by simp) n ⟨not_le.1 hlt, hn2⟩

example : (∀ t ∈ ([1/4, 1/2, 3/4, 1, 5/4] : List ℚ), ∀ n : ℤ,
    ¬ (t < n * (1/2) ∧ n * (1/2) ≤ t + 1 / 10 ^ 15)) ∧
    (run true [mkOut .floor .record (1/2) (0 : ℚ)] [1/4, 1/2, 3/4, 1, 5/4]).map Out.saved
      = [[0, 1/2, 1]] := by
  refine ⟨?_, by decide +kernel⟩
  intro t ht n h
  simp only [List.mem_cons, List.not_mem_nil, or_false] at ht
  have key : ∀ q : ℚ, q < n * 2 → (n : ℚ) * 2 ≤ q + 4 / 10 ^ 15 → (∃ z : ℤ, (z : ℚ) = q) → False := by
    rintro q h1 h2 ⟨z, rfl⟩
    have a : z < n * 2 := by exact_mod_cast h1
    have b : n * 2 < z + 1 := by
      have : (n : ℚ) * 2 < z + 1 := lt_of_le_of_lt h2 (by norm_num)
      exact_mod_cast this
    omega
  rcases ht with rfl | rfl | rfl | rfl | rfl
  · exact key 1 (by linarith [h.1]) (by norm_num at h ⊢; linarith [h.2]) ⟨1, by norm_num⟩
  · exact key 2 (by linarith [h.1]) (by norm_num at h ⊢; linarith [h.2]) ⟨2, by norm_num⟩
  · exact key 3 (by linarith [h.1]) (by norm_num at h ⊢; linarith [h.2]) ⟨3, by norm_num⟩
  · exact key 4 (by linarith [h.1]) (by norm_num at h ⊢; linarith [h.2]) ⟨4, by norm_num⟩
  · exact key 5 (by linarith [h.1]) (by norm_num at h ⊢; linarith [h.2]) ⟨5, by norm_num⟩

/-- C15, floor test, number of saves. As long as the steps are longer than the tolerance
1e-15, there are at most two saves per period boundary crossed: at most
`2 (T - t0)/p + 4` saves (record at construction included) if the tolerance is smaller than
the period. -/
theorem C15_floor_count (p t0 : K) (hp : 0 < p) (hpe : 1 / 10 ^ 15 ≤ p) (times : List K)
    (ht : GapsAtLeast (1 / 10 ^ 15) t0 times) :
    ∃ o, run true [mkOut .floor .record p t0] times = [o] ∧
      (o.saved.length : K) ≤ 2 * (((t0 :: times).getLast (by simp) - t0) / p) + 4 := by
  refine ⟨_, run_single _ _, ?_⟩
  obtain ⟨l, h1, h2⟩ := follow_selects (mkOut .floor .record p t0) hp.ne' times
  rw [h1]
  have h3 : Selects (LaterBinTol p eps) t0 times l := h2.congr (due_floor _ hp)
  have he : (0 : K) < eps := eps_pos
  have hinh : List.IsChain (fun x y => x + eps ≤ y) (t0 :: l) :=
    h3.inherit (fun a b c h h' => by linarith) ht
  have hmono : TimesFrom t0 times := List.IsChain.imp (fun a b h => by
    have : (0 : K) < 1 / 10 ^ 15 := eps_pos
    linarith) ht
  have hdiv : ∀ x y : K, x ≤ y → x / p ≤ y / p := fun x y h => (div_le_div_iff_of_pos_right hp).2 h
  have hc := chain_count (fun x => (⌊x / p⌋ : K) + (⌊(x + eps) / p⌋ : K))
    (fun a b (h : LaterBinTol p eps a b ∧ a + eps ≤ b) => by
      have ha : ⌊a / p⌋ + 1 ≤ ⌊(b + eps) / p⌋ := (floor_lt_iff p hp a (b + eps)).2 h.1
      have hb : ⌊(a + eps) / p⌋ ≤ ⌊b / p⌋ := Int.floor_le_floor (hdiv _ _ h.2)
      have ha' : (⌊a / p⌋ : K) + 1 ≤ ⌊(b + eps) / p⌋ := by exact_mod_cast ha
      have hb' : (⌊(a + eps) / p⌋ : K) ≤ ⌊b / p⌋ := by exact_mod_cast hb
      linarith) (chain_and h3.chain hinh)
  have hl := h3.last_le hmono
  generalize (t0 :: l).getLast (by simp) = z at hc hl
  generalize (t0 :: times).getLast (by simp) = T at hl ⊢
  have b1 : (⌊z / p⌋ : K) ≤ T / p := (Int.floor_le _).trans (hdiv _ _ hl)
  have b2 : (⌊(z + eps) / p⌋ : K) ≤ T / p + 1 := by
    refine (Int.floor_le _).trans ?_
    rw [add_div]
    have : (eps : K) / p ≤ 1 := by rw [div_le_one hp]; exact hpe
    have := hdiv _ _ hl
    linarith
  have b3 : t0 / p < (⌊t0 / p⌋ : K) + 1 := Int.lt_floor_add_one _
  have b4 : t0 / p < (⌊(t0 + eps) / p⌋ : K) + 1 :=
    lt_of_le_of_lt (hdiv _ _ (by linarith)) (Int.lt_floor_add_one _)
  simp only [mkOut, List.singleton_append, List.length_cons, Nat.cast_add, Nat.cast_one]
  rw [sub_div]
  linarith

example : GapsAtLeast (1 / 10 ^ 15 : ℚ) 0 [1/2, 1, 3/2, 2] := by
  simp [GapsAtLeast]; norm_num

/-- C15, floor test: if successive calls are at most `d` apart, every window of length
`p + d` within the run contains a save. -/
theorem C15_floor_no_gap (p t0 d : K) (hp : 0 < p) (hd : 0 ≤ d) (times : List K)
    (ht : TimesFrom t0 times) (hg : GapsAtMost d t0 times) :
    ∃ o, run true [mkOut .floor .record p t0] times = [o] ∧
      ∀ τ, t0 ≤ τ → τ + (p + d) ≤ (t0 :: times).getLast (by simp) →
        ∃ s ∈ o.saved, τ ≤ s ∧ s < τ + (p + d) := by
  refine ⟨_, run_single _ _, ?_⟩
  obtain ⟨l, h1, h2⟩ := follow_selects (mkOut .floor .record p t0) hp.ne' times
  rw [h1]
  have h3 : Selects (LaterBinTol p eps) t0 times l := h2.congr (due_floor _ hp)
  intro τ hτ hw
  obtain ⟨s, hs, ha, hb⟩ := h3.window p d hd (fun a b h => by
      by_contra hlt
      apply h
      refine ⟨⌊a / p⌋ + 1, ?_, ?_⟩
      · have := Int.lt_floor_add_one (a / p)
        rw [div_lt_iff₀ hp] at this
        push_cast; exact this
      · have h1 : (⌊a / p⌋ : K) * p ≤ a := by
          have := Int.floor_le (a / p)
          rwa [le_div_iff₀ hp] at this
        have := eps_pos (K := K)
        push_cast
        linarith [not_lt.1 hlt]) t0 le_rfl
    (by simpa [mkOut] using hp) hg ht τ hτ (by rw [add_assoc]; exact hw)
  exact ⟨s, by simp [hs], ha, by rw [← add_assoc]; exact hb⟩

/-- C15: the outputs initialised with `t_last_save = -period` (probes, standard output) save
at the first call, at any non-negative time. -/
theorem C15_eager_first_call (p t0 : K) (hp : 0 < p) (h0 : 0 ≤ t0) (times : List K) :
    ∃ o l, run true [mkOut .floor .eager p t0] (t0 :: times) = [o] ∧ o.saved = t0 :: l := by
  obtain ⟨l, h1, h2⟩ := follow_selects (mkOut .floor .eager p t0) hp.ne' (t0 :: times)
  have h3 : Selects (LaterBinTol p eps) (-p) (t0 :: times) l := h2.congr (due_floor _ hp)
  have hr : LaterBinTol p eps (-p) t0 := ⟨0, by simpa using hp, by
    have := eps_pos (K := K)
    simp only [Int.cast_zero, zero_mul]
    linarith⟩
  have : ∃ l', l = t0 :: l' := by
    generalize ht : t0 :: times = ts at h3
    cases h3 with
    | done hn => exact absurd hr (hn t0 (by rw [← ht]; simp))
    | @take _ s pre post l' hn _ _ =>
      cases pre with
      | nil => simp at ht; exact ⟨l', by rw [ht.1]⟩
      | cons b pre =>
        simp at ht
        exact absurd hr (hn t0 (by simp [ht.1]))
  obtain ⟨l', rfl⟩ := this
  exact ⟨_, l', run_single _ _, by simpa [mkOut] using h1⟩

example : (run true [mkOut .floor .eager 1 (0 : ℚ)] [0, 1/2, 1]).map Out.saved = [[0, 1]] := by
  decide +kernel

/-! ### The final state -/

theorem physStep_inv (f : Phys K) (t : K) :
    (∀ l, (physStep f t).tLast = some l →
      (f.tLast = some l ∧ (physStep f t).saved = f.saved) ∨
      (l = t ∧ (physStep f t).saved = f.saved ++ [t])) := by
  intro l hl
  unfold physStep at hl ⊢
  split_ifs at hl ⊢ with h0
  · cases ht : f.tLast with
    | none => simp only [ht] at hl ⊢; right; simpa using hl.symm
    | some a =>
      simp only [ht] at hl ⊢
      split_ifs at hl ⊢ with hd
      · right; simpa using hl.symm
      · left; exact ⟨by rw [← ht, hl], rfl⟩
  · left; exact ⟨hl, rfl⟩

/-- Invariant: the time of the last save is the initial time or a saved time, and no
later than the current one. -/
theorem physFold_inv (t0 tEnd : K) (times : List K) (hle : ∀ t ∈ times, t ≤ tEnd) (f : Phys K)
    (hf : ∀ l, f.tLast = some l → l ≤ tEnd ∧ (l = t0 ∨ l ∈ f.saved)) :
    (∀ l, (times.foldl physStep f).tLast = some l →
      l ≤ tEnd ∧ (l = t0 ∨ l ∈ (times.foldl physStep f).saved)) ∧
    (∀ s ∈ f.saved, s ∈ (times.foldl physStep f).saved) := by
  induction times generalizing f with
  | nil => exact ⟨hf, fun s h => h⟩
  | cons t ts ih =>
    have hsub : ∀ s ∈ f.saved, s ∈ (physStep f t).saved := by
      intro s hs
      unfold physStep
      split_ifs with h0
      · cases ht : f.tLast with
        | none => simp [hs]
        | some a => simp only; split_ifs <;> simp [hs]
      · exact hs
    have hstep : ∀ l, (physStep f t).tLast = some l →
        l ≤ tEnd ∧ (l = t0 ∨ l ∈ (physStep f t).saved) := by
      intro l hl
      rcases physStep_inv f t l hl with ⟨h1, h2⟩ | ⟨h1, h2⟩
      · rw [h2]; exact hf l h1
      · rw [h2, h1]; exact ⟨hle t (by simp), Or.inr (by simp)⟩
    obtain ⟨i1, i2⟩ := ih (fun x hx => hle x (by simp [hx])) (physStep f t) hstep
    exact ⟨i1, fun s hs => i2 s (hsub s hs)⟩

/-- C15: when a run that saves ends, the physical fields of its final time have been saved,
whatever the periods: if time has advanced, or if the initial state was saved. -/
theorem C15_final_state_saved (saveInit : Bool) (ps pp t0 tEnd : K) (times : List K)
    (hle : ∀ t ∈ times, t ≤ tEnd) (h0 : t0 ≤ tEnd) (hadv : t0 < tEnd ∨ saveInit = true) :
    tEnd ∈ (physRun true saveInit ps pp t0 times tEnd).saved := by
  set f1 : Phys K := if saveInit then { mkPhys ps pp t0 with
    saved := (mkPhys ps pp t0).saved ++ [t0] } else mkPhys ps pp t0 with hf1
  have hlast0 : ∀ l, f1.tLast = some l → l ≤ tEnd ∧ (l = t0 ∨ l ∈ f1.saved) := by
    intro l hl
    have : l = t0 := by
      rw [hf1] at hl
      unfold mkPhys at hl
      split_ifs at hl <;> simp at hl <;> exact hl.symm
    exact ⟨this ▸ h0, Or.inl this⟩
  obtain ⟨inv1, sub1⟩ := physFold_inv t0 tEnd (times ++ [tEnd])
    (by intro t ht; rcases List.mem_append.1 ht with h | h
        · exact hle t h
        · simp at h; exact h.le) f1 hlast0
  rw [List.foldl_append] at inv1 sub1
  simp only [List.foldl_cons, List.foldl_nil] at inv1 sub1
  have hrun : physRun true saveInit ps pp t0 times tEnd =
      (let f := physStep (times.foldl physStep f1) tEnd
       if beforeTime f.tLast tEnd then { f with saved := f.saved ++ [tEnd] } else f) := by
    simp [physRun, hf1]
  rw [hrun]
  generalize physStep (times.foldl physStep f1) tEnd = f at inv1 sub1
  simp only
  cases ht : f.tLast with
  | none => simp [beforeTime]
  | some l =>
    by_cases hl : l < tEnd
    · simp [hl, beforeTime]
    · simp only [beforeTime, hl, decide_false, Bool.false_eq_true, if_false]
      obtain ⟨hle', hor⟩ := inv1 l ht
      have : l = tEnd := le_antisymm hle' (not_lt.1 hl)
      subst this
      rcases hor with h | h
      · rcases hadv with ha | ha
        · exact absurd h (ne_of_gt ha)
        · apply sub1
          rw [hf1, if_pos ha]
          simp [h]
      · exact h

example : (physRun true true 1 0 (0 : ℚ) [0, 1/2, 1, 3/2] 2).saved = [0, 1, 2] ∧
    (physRun true true 0 0 (0 : ℚ) [0, 1/2, 1, 3/2] 2).saved = [0, 2] ∧
    (physRun true false 1 0 (0 : ℚ) [0, 1/2, 1] (3/2)).saved = [1, 3/2] := by
  decide +kernel

/-- C15: a run that does not save writes no physical fields at all. -/
theorem C15_no_final_save_without_has_to_save (saveInit : Bool) (ps pp t0 tEnd : K)
    (times : List K) : (physRun false saveInit ps pp t0 times tEnd).saved = [] := by
  simp [physRun, mkPhys]; split <;> rfl

end Verif.Cadence
