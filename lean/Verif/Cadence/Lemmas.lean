import Verif.Cadence.Spec
import Mathlib.Tactic.Linarith
import Mathlib.Tactic.Ring
import Mathlib.Tactic.FieldSimp
import Mathlib.Tactic.Positivity

set_option linter.unusedSectionVars false

namespace Verif.Cadence

variable {K : Type*} [Field K] [LinearOrder K] [IsStrictOrderedRing K] [FloorRing K]

theorem eps_pos : (0 : K) < eps := by unfold eps; positivity

/-! ### one output along a run -/

/-- What the fold does to one output. -/
def follow (o : Out K) (times : List K) : Out K :=
  times.foldl (fun o t => if o.period ≠ 0 then onlineSave o t else o) o

theorem run_true (outs : List (Out K)) (times : List K) :
    run true outs times = outs.map (fun o => follow o times) := by
  induction times generalizing outs with
  | nil => simp [run, follow]
  | cons t ts ih =>
    have : run true outs (t :: ts) = run true (oneTimeStep true outs t) ts := rfl
    rw [this, ih]
    simp [oneTimeStep, follow, List.map_map, Function.comp_def]

theorem run_false (outs : List (Out K)) (times : List K) : run false outs times = outs := by
  induction times with
  | nil => rfl
  | cons t ts ih => simpa [run, oneTimeStep] using ih

theorem onlineSave_kind (o : Out K) (t : K) : (onlineSave o t).kind = o.kind := by
  unfold onlineSave; split <;> rfl

theorem onlineSave_period (o : Out K) (t : K) : (onlineSave o t).period = o.period := by
  unfold onlineSave; split <;> rfl

theorem Selects.skip {ready : K → K → Prop} {last t : K} {times l : List K}
    (h : ¬ ready last t) (hs : Selects ready last times l) :
    Selects ready last (t :: times) l := by
  cases hs with
  | done hd =>
    refine .done fun x hx => ?_
    rcases List.mem_cons.1 hx with rfl | hx
    · exact h
    · exact hd x hx
  | @take _ s pre post l hp hr hs =>
    have : t :: (pre ++ s :: post) = (t :: pre) ++ s :: post := rfl
    rw [this]
    refine .take (fun x hx => ?_) hr hs
    rcases List.mem_cons.1 hx with rfl | hx
    · exact h
    · exact hp x hx

theorem follow_selects (o : Out K) (h0 : o.period ≠ 0) (times : List K) :
    ∃ l, (follow o times).saved = o.saved ++ l ∧
      Selects (fun a b => due o.kind o.period a b = true) o.tLast times l := by
  induction times generalizing o with
  | nil => exact ⟨[], by simp [follow], .done (by simp)⟩
  | cons t ts ih =>
    have hf : follow o (t :: ts) = follow (onlineSave o t) ts := by
      simp [follow, h0]
    rw [hf]
    obtain ⟨l, hl, hs⟩ := ih (onlineSave o t) (by rw [onlineSave_period]; exact h0)
    rw [onlineSave_kind, onlineSave_period] at hs
    by_cases hd : due o.kind o.period o.tLast t = true
    · have e : onlineSave o t = { o with tLast := t, saved := o.saved ++ [t] } := by
        simp [onlineSave, hd]
      rw [e] at hl hs ⊢
      exact ⟨t :: l, by simpa using hl, Selects.take (pre := []) (by simp) hd hs⟩
    · have e : onlineSave o t = o := by simp [onlineSave, hd]
      rw [e] at hl hs ⊢
      exact ⟨l, hl, hs.skip hd⟩

theorem follow_zero (o : Out K) (h0 : o.period = 0) (times : List K) : follow o times = o := by
  induction times with
  | nil => rfl
  | cons t ts ih => simpa [follow, h0] using ih

/-! ### the two tests -/

theorem due_diff (p a b : K) : due .diff p a b = true ↔ PeriodElapsed p a b := by
  simp [due, PeriodElapsed]

theorem floor_lt_iff (p : K) (hp : 0 < p) (x y : K) :
    ⌊x / p⌋ < ⌊y / p⌋ ↔ ∃ n : ℤ, x < n * p ∧ n * p ≤ y := by
  constructor
  · intro h
    refine ⟨⌊y / p⌋, ?_, ?_⟩
    · have : x / p < (⌊y / p⌋ : K) := Int.floor_lt.1 h
      rwa [div_lt_iff₀ hp] at this
    · have : (⌊y / p⌋ : K) ≤ y / p := Int.floor_le _
      rwa [le_div_iff₀ hp] at this
  · rintro ⟨n, h1, h2⟩
    have a : ⌊x / p⌋ < n := Int.floor_lt.2 (by rwa [div_lt_iff₀ hp])
    have b : n ≤ ⌊y / p⌋ := Int.le_floor.2 (by rwa [le_div_iff₀ hp])
    omega

theorem due_floor (p : K) (hp : 0 < p) (a b : K) :
    due .floor p a b = true ↔ LaterBinTol p eps a b := by
  simp only [due, decide_eq_true_eq, gt_iff_lt, LaterBinTol]
  exact floor_lt_iff p hp a (b + eps)

theorem Selects.congr {r r' : K → K → Prop} (h : ∀ a b, r a b ↔ r' a b) {last : K}
    {times l : List K} (hs : Selects r last times l) : Selects r' last times l := by
  have : r = r' := by funext a b; exact propext (h a b)
  rwa [← this]

/-! ### consequences of a selection -/

theorem Selects.chain {r : K → K → Prop} {last : K} {times l : List K}
    (hs : Selects r last times l) : List.IsChain r (last :: l) := by
  induction hs with
  | done _ => simp
  | take _ hr _ ih => exact List.IsChain.cons_cons hr ih

theorem Selects.subset {r : K → K → Prop} {last : K} {times l : List K}
    (hs : Selects r last times l) : l.Sublist times := by
  induction hs with
  | done _ => simp
  | take _ _ _ ih => exact (ih.cons_cons _).trans (List.sublist_append_right _ _)

theorem chain_le_last {a : K} {l : List K} (h : List.IsChain (· ≤ ·) (a :: l)) :
    ∀ x ∈ a :: l, x ≤ (a :: l).getLast (by simp) := by
  induction l generalizing a with
  | nil => simp
  | cons b l ih =>
    intro x hx
    have hab : a ≤ b := by
      rcases List.isChain_cons_cons.1 h with ⟨h1, _⟩; exact h1
    have ht := (List.isChain_cons_cons.1 h).2
    have hl : (a :: b :: l).getLast (by simp) = (b :: l).getLast (by simp) := by simp
    rw [hl]
    rcases List.mem_cons.1 hx with rfl | hx
    · exact hab.trans (ih ht b (by simp))
    · exact ih ht x hx

/-- In every window of length `w` covered by the run there is a selected time, if a time is
ready as soon as `q` has elapsed and calls are at most `d` apart. -/
theorem Selects.window {r : K → K → Prop} (q d : K) (hd : 0 ≤ d)
    (hr : ∀ a b, ¬ r a b → b - a < q) {last : K} {times l : List K}
    (hs : Selects r last times l) :
    ∀ a, last ≤ a → a - last < q → GapsAtMost d a times → TimesFrom a times →
      ∀ τ, last ≤ τ → τ + q + d ≤ (a :: times).getLast (by simp) →
        ∃ s ∈ l, τ ≤ s ∧ s < τ + q + d := by
  induction hs with
  | @done last times hn =>
    intro a ha hq _ hto τ hτ hw
    exfalso
    have hm := List.getLast_mem (l := a :: times) (by simp)
    rcases List.mem_cons.1 hm with he | hm
    · rw [he] at hw; linarith
    · have := hr _ _ (hn _ hm); linarith
  | @take last s pre post l hn hrd hs ih =>
    intro a ha hq hg hto τ hτ hw
    -- the element before `s`
    have hprev : ∀ (pre : List K) (a : K), a - last < q → (∀ t ∈ pre, t - last < q) →
        GapsAtMost d a (pre ++ s :: post) → s - last < q + d ∧ GapsAtMost d s post := by
      intro pre
      induction pre with
      | nil =>
        intro a ha _ hg
        simp only [List.nil_append, GapsAtMost] at hg
        have h := List.isChain_cons_cons.1 hg
        exact ⟨by linarith [h.1], h.2⟩
      | cons b pre ih =>
        intro a _ hp hg
        have h := List.isChain_cons_cons.1 hg
        exact ih b (hp b (by simp)) (fun t ht => hp t (by simp [ht])) h.2
    obtain ⟨hsl, hgs⟩ := hprev pre a hq (fun t ht => hr _ _ (hn t ht)) hg
    have hts : ∀ (pre : List K) (a : K), TimesFrom a (pre ++ s :: post) →
        a ≤ s ∧ TimesFrom s post := by
      intro pre
      induction pre with
      | nil => intro a h; exact List.isChain_cons_cons.1 h
      | cons b pre ih =>
        intro a h
        have h := List.isChain_cons_cons.1 h
        have := ih b h.2
        exact ⟨h.1.trans this.1, this.2⟩
    obtain ⟨has, hts⟩ := hts pre a hto
    by_cases hc : τ ≤ s
    · exact ⟨s, by simp, hc, by linarith⟩
    · have hlast : (a :: (pre ++ s :: post)).getLast (by simp)
          = (s :: post).getLast (by simp) := by
        rw [List.getLast_cons (by simp), List.getLast_append_of_ne_nil (by simp)]
      rw [hlast] at hw
      have hq0 : 0 < q := by linarith
      obtain ⟨x, hx, h1, h2⟩ := ih s le_rfl (by simpa using hq0) hgs hts τ (by linarith) hw
      exact ⟨x, by simp [hx], h1, h2⟩

/-- If a potential increases by at least one at each selection, the number of selections is
bounded by its total variation. -/
theorem chain_count {r : K → K → Prop} (φ : K → K) (hφ : ∀ a b, r a b → φ a + 1 ≤ φ b)
    {a : K} {l : List K} (h : List.IsChain r (a :: l)) :
    φ a + (l.length : K) ≤ φ ((a :: l).getLast (by simp)) := by
  induction l generalizing a with
  | nil => simp
  | cons b l ih =>
    have h := List.isChain_cons_cons.1 h
    have h1 := hφ _ _ h.1
    have h2 := ih h.2
    rw [List.getLast_cons (by simp)]
    push_cast [List.length_cons]
    linarith

theorem chain_and {r r' : K → K → Prop} {l : List K} (h : List.IsChain r l)
    (h' : List.IsChain r' l) : List.IsChain (fun a b => r a b ∧ r' a b) l := by
  induction l with
  | nil => simp
  | cons a l ih =>
    cases l with
    | nil => simp
    | cons b l =>
      rw [List.isChain_cons_cons] at *
      exact ⟨⟨h.1, h'.1⟩, ih h.2 h'.2⟩

/-- A selection inherits a transitive relation between successive calls. -/
theorem Selects.inherit {r q : K → K → Prop} (hq : ∀ a b c, q a b → q b c → q a c) {last : K}
    {times l : List K} (hs : Selects r last times l) (h : List.IsChain q (last :: times)) :
    List.IsChain q (last :: l) := by
  have : Trans q q q := ⟨fun {a b c} => hq a b c⟩
  have hp : List.Pairwise q (last :: times) := List.isChain_iff_pairwise.1 h
  exact List.isChain_iff_pairwise.2 (hp.sublist (hs.subset.cons_cons last))

theorem Selects.last_le {r : K → K → Prop} {last : K} {times l : List K}
    (hs : Selects r last times l) (h : TimesFrom last times) :
    (last :: l).getLast (by simp) ≤ (last :: times).getLast (by simp) :=
  chain_le_last h _ ((hs.subset.cons_cons last).subset (List.getLast_mem _))

end Verif.Cadence
