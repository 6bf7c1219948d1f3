import Verif.PhasePool.Model
import Mathlib.Tactic.Linarith
import Mathlib.Tactic.Ring
import Mathlib.Tactic.NormNum

/-! # C09: the random phase-shift pairs -/

set_option linter.unusedSectionVars false

namespace Verif.PhasePool

variable {D K : Type*} [Field K] [LinearOrder K] [IsStrictOrderedRing K]

/-- Specification: the two shifts differ by half a cell in each direction (the hypothesis of
`C08_pair_average_weights`). -/
def HalfCellApart (p : (D → K) × (D → K)) : Prop :=
  ∀ d, p.2 d = p.1 d + 1 / 2 ∨ p.2 d = p.1 d - 1 / 2

/-- `random.randint(0, nb_pairs - 1)` returns an index of the pool. -/
def Rand.ok (n : Nat) (r : Rand D K) : Prop := r.indexPair < n

theorem phasesRandom_apart (alpha : D → K) : HalfCellApart (phasesRandom alpha) := by
  intro d
  simp only [phasesRandom, partner]
  split
  · left; rfl
  · right; rfl

theorem swap_apart {p : (D → K) × (D → K)} (h : HalfCellApart p) : HalfCellApart p.swap := by
  intro d
  simp only [Prod.fst_swap, Prod.snd_swap]
  rcases h d with h | h
  · right; rw [h]; ring
  · left; rw [h]; ring

/-- Invariant of the pool. -/
def Inv (s : Pool D K) : Prop :=
  s.pairs.length = s.nbPairs ∧ 0 < s.nbPairs ∧ ∀ p ∈ s.pairs, HalfCellApart p

theorem get_inv {s : Pool D K} (hs : Inv s) (r : Rand D K) (hr : r.ok s.nbPairs) :
    ∃ s' p, get s r = some (s', p) ∧ Inv s' ∧ s'.nbPairs = s.nbPairs ∧ HalfCellApart p := by
  obtain ⟨hlen, hpos, hall⟩ := hs
  have h0 : 0 < s.pairs.length := by omega
  have hi : r.indexPair < s.pairs.length := by rw [hlen]; exact hr
  have hg0 : s.pairs[0]? = some s.pairs[0] := List.getElem?_eq_getElem h0
  have hgi : s.pairs[r.indexPair]? = some s.pairs[r.indexPair] := List.getElem?_eq_getElem hi
  have a0 : HalfCellApart s.pairs[0] := hall _ (List.getElem_mem h0)
  have ai : HalfCellApart s.pairs[r.indexPair] := hall _ (List.getElem_mem hi)
  -- second half of the function
  have tail : ∀ (s1 : Pool D K) (p : (D → K) × (D → K)), s1.pairs = s.pairs →
      s1.nbPairs = s.nbPairs → HalfCellApart p →
      ∃ s' p', (if s1.index = s1.nbSteps then
        match s1.pairs with
        | [] => none
        | _ :: rest =>
          some ({ s1 with index := 1, pairs := rest ++ [phasesRandom r.alpha] },
            phasesRandom r.alpha)
        else some ({ s1 with index := s1.index + 1 }, p)) = some (s', p') ∧ Inv s' ∧
        s'.nbPairs = s.nbPairs ∧ HalfCellApart p' := by
    intro s1 p e1 e2 hp
    split
    · rw [e1]
      cases hl : s.pairs with
      | nil => simp [hl] at h0
      | cons a rest =>
        refine ⟨_, _, rfl, ⟨?_, ?_, ?_⟩, ?_, phasesRandom_apart _⟩
        · simp only [List.length_append, List.length_singleton]
          rw [e2, ← hlen, hl]; simp
        · simpa [e2] using hpos
        · intro q hq
          simp only [List.mem_append, List.mem_singleton] at hq
          rcases hq with hq | rfl
          · exact hall q (by rw [hl]; simp [hq])
          · exact phasesRandom_apart _
        · exact e2
    · refine ⟨_, _, rfl, ⟨?_, ?_, ?_⟩, e2, hp⟩
      · simp [e1, e2, hlen]
      · simpa [e2] using hpos
      · simpa [e1] using hall
  unfold get
  simp only [hg0, hgi]
  by_cases c1 : s.nbPairs = 1 ∧ s.nbSteps = 1
  · rw [if_pos c1]
    exact tail s _ rfl rfl a0
  · rw [if_neg c1]
    by_cases c2 : s.nbPairs = 1 ∧ s.nbSteps = 2
    · rw [if_pos c2]
      by_cases c3 : s.index = 1
      · rw [if_pos c3]; exact tail s _ rfl rfl a0
      · rw [if_neg c3]; exact tail s _ rfl rfl (swap_apart a0)
    · rw [if_neg c2]
      refine tail _ _ rfl rfl ?_
      generalize (if r.indexPair = s.prevPair ∧ r.indexFlip = s.prevFlip then !r.indexFlip
          else r.indexFlip) = flip
      cases flip
      · exact swap_apart ai
      · exact ai

theorem init_inv (n : Nat) (hn : 0 < n) (ns : Option Nat) (draws : Fin n → D → K) :
    Inv (init n ns draws) := by
  refine ⟨by simp [init], hn, ?_⟩
  intro p hp
  simp only [init, List.mem_ofFn] at hp
  obtain ⟨i, rfl⟩ := hp
  exact phasesRandom_apart _

/-- **C09** For every number of pairs, every regeneration period, every sequence of draws and
every number of calls: no exception, and each returned pair consists of two shifts that differ
by half a cell in each direction. -/
theorem C09_pairs_consistent (n : Nat) (hn : 0 < n) (ns : Option Nat)
    (draws : Fin n → D → K) (rs : List (Rand D K)) (hrs : ∀ r ∈ rs, r.ok n) :
    ∃ ps, run (init n ns draws) rs = some ps ∧ ps.length = rs.length ∧
      ∀ p ∈ ps, HalfCellApart p := by
  have gen : ∀ (rs : List (Rand D K)) (s : Pool D K), Inv s → (∀ r ∈ rs, r.ok s.nbPairs) →
      ∃ ps, run s rs = some ps ∧ ps.length = rs.length ∧ ∀ p ∈ ps, HalfCellApart p := by
    intro rs
    induction rs with
    | nil => intro s _ _; exact ⟨[], rfl, rfl, by simp⟩
    | cons r rs ih =>
      intro s hs hr
      obtain ⟨s', p, e, hs', hn', hp⟩ := get_inv hs r (hr r (by simp))
      obtain ⟨ps, e2, hl, hps⟩ := ih s' hs' (fun r' h' => by rw [hn']; exact hr r' (by simp [h']))
      refine ⟨p :: ps, ?_, by simp [hl], ?_⟩
      · simp [run, e, e2]
      · intro q hq
        rcases List.mem_cons.1 hq with rfl | hq
        · exact hp
        · exact hps q hq
  exact gen rs _ (init_inv n hn ns draws) hrs

/-- **C09** The shifts are within half a cell for draws of `uniform(-0.5, 0.5)`. -/
theorem C09_partner_within_half_cell (alpha : D → K)
    (h : ∀ d, -(1 / 2) ≤ alpha d ∧ alpha d ≤ 1 / 2) (d : D) :
    -(1 / 2) ≤ partner alpha d ∧ partner alpha d ≤ 1 / 2 := by
  obtain ⟨h1, h2⟩ := h d
  simp only [partner]
  split
  · constructor <;> linarith
  · next hc => constructor <;> linarith [not_lt.1 hc]

/-- The pool after a history of calls. -/
def after (s : Pool D K) : List (Rand D K) → Option (Pool D K)
  | [] => some s
  | r :: rs => (get s r).bind (fun q => after q.1 rs)

/-- Specification: the pairs drawn by the calls whose number (from the first one, number 1) is a multiple of
`P`, `c` calls having been made before. -/
def drawnEvery (P : Nat) (c : Nat) : List (Rand D K) → List ((D → K) × (D → K))
  | [] => []
  | r :: rs => (if P ∣ c + 1 then [phasesRandom r.alpha] else []) ++ drawnEvery P (c + 1) rs

theorem get_pool {s : Pool D K} (hs : Inv s) (r : Rand D K) (hr : r.ok s.nbPairs) :
    ∃ s' p, get s r = some (s', p) ∧ s'.nbSteps = s.nbSteps ∧
      (s.index = s.nbSteps → s'.index = 1 ∧ s'.pairs = s.pairs.tail ++ [phasesRandom r.alpha]) ∧
      (s.index ≠ s.nbSteps → s'.index = s.index + 1 ∧ s'.pairs = s.pairs) := by
  obtain ⟨hlen, hpos, hall⟩ := hs
  have h0 : 0 < s.pairs.length := by omega
  have hi : r.indexPair < s.pairs.length := by rw [hlen]; exact hr
  have hg0 : s.pairs[0]? = some s.pairs[0] := List.getElem?_eq_getElem h0
  have hgi : s.pairs[r.indexPair]? = some s.pairs[r.indexPair] := List.getElem?_eq_getElem hi
  have tail : ∀ (s1 : Pool D K) (p : (D → K) × (D → K)), s1.pairs = s.pairs →
      s1.nbSteps = s.nbSteps → s1.index = s.index →
      ∃ s' p', (if s1.index = s1.nbSteps then
        match s1.pairs with
        | [] => none
        | _ :: rest =>
          some ({ s1 with index := 1, pairs := rest ++ [phasesRandom r.alpha] },
            phasesRandom r.alpha)
        else some ({ s1 with index := s1.index + 1 }, p)) = some (s', p') ∧
        s'.nbSteps = s.nbSteps ∧
        (s.index = s.nbSteps → s'.index = 1 ∧ s'.pairs = s.pairs.tail ++ [phasesRandom r.alpha]) ∧
        (s.index ≠ s.nbSteps → s'.index = s.index + 1 ∧ s'.pairs = s.pairs) := by
    intro s1 p e1 e2 e3
    rw [e1, e2, e3]
    split
    · next hc =>
      cases hl : s.pairs with
      | nil => simp [hl] at h0
      | cons a rest => exact ⟨_, _, rfl, rfl, fun _ => ⟨rfl, rfl⟩, fun h => absurd hc h⟩
    · next hc => exact ⟨_, _, rfl, rfl, fun h => absurd h hc, fun _ => ⟨rfl, rfl⟩⟩
  unfold get
  simp only [hg0, hgi]
  by_cases c1 : s.nbPairs = 1 ∧ s.nbSteps = 1
  · rw [if_pos c1]; exact tail s _ rfl rfl rfl
  · rw [if_neg c1]
    by_cases c2 : s.nbPairs = 1 ∧ s.nbSteps = 2
    · rw [if_pos c2]
      by_cases c3 : s.index = 1
      · rw [if_pos c3]; exact tail s _ rfl rfl rfl
      · rw [if_neg c3]; exact tail s _ rfl rfl rfl
    · rw [if_neg c2]; exact tail _ _ rfl rfl rfl

/-- **C09** The pool is renewed at the requested rate: after any history of calls it holds the `n` last pairs
drawn, where a new pair is drawn at each call whose number is a multiple of the period.  The period is
`nb_steps_compute_new_pair`, by default 2 for one pair and `4 n` for `n` pairs. -/
theorem C09_renewal (n : Nat) (hn : 0 < n) (ns : Option Nat) (draws : Fin n → D → K)
    (rs : List (Rand D K)) (hrs : ∀ r ∈ rs, r.ok n)
    (P : Nat) (hP : P = ns.getD (if n = 1 then 2 else 4 * n)) (hP0 : 0 < P) :
    ∃ s, after (init n ns draws) rs = some s ∧
      let new := drawnEvery P 0 rs
      s.pairs = (List.ofFn (fun i => phasesRandom (draws i)) ++ new).drop new.length := by
  have gen : ∀ (rs : List (Rand D K)) (c : Nat) (s : Pool D K), Inv s → s.nbSteps = P →
      s.index = c % P + 1 → (∀ r ∈ rs, r.ok s.nbPairs) →
      ∃ s', after s rs = some s' ∧
        s'.pairs = (s.pairs ++ drawnEvery P c rs).drop (drawnEvery P c rs).length := by
    intro rs
    induction rs with
    | nil => intro c s _ _ _ _; exact ⟨s, rfl, by simp [drawnEvery]⟩
    | cons r rs ih =>
      intro c s hs hst hix hr
      obtain ⟨s', p, e, e1, e2, e3⟩ := get_pool hs r (hr r (by simp))
      obtain ⟨s'', p', e', hs', hn', -⟩ := get_inv hs r (hr r (by simp))
      rw [e] at e'
      obtain ⟨rfl, rfl⟩ := Prod.mk.inj (Option.some.inj e')
      have hr' : ∀ q ∈ rs, q.ok s'.nbPairs := fun q h' => by rw [hn']; exact hr q (by simp [h'])
      have hm := Nat.mod_lt c hP0
      have hpl : 0 < s.pairs.length := by rw [hs.1]; exact hs.2.1
      have hdm := Nat.div_add_mod c P
      by_cases hd : P ∣ c + 1
      · have hfull : c % P + 1 = P := by
          rcases Nat.lt_or_ge (c % P + 1) P with hlt | hge
          · have : (c + 1) % P = c % P + 1 := by
              rw [Nat.add_mod, Nat.mod_eq_of_lt (a := 1) (by omega), Nat.mod_eq_of_lt hlt]
            rw [Nat.mod_eq_zero_of_dvd hd] at this
            omega
          · omega
        obtain ⟨i1, i2⟩ := e2 (by rw [hix, hst]; exact hfull)
        obtain ⟨s3, a1, a2⟩ := ih (c + 1) s' hs' (by rw [e1, hst])
          (by rw [i1, Nat.mod_eq_zero_of_dvd hd]) hr'
        refine ⟨s3, by simp [after, e, a1], ?_⟩
        rw [a2, i2]
        cases hl : s.pairs with
        | nil => simp [hl] at hpl
        | cons a rest =>
          simp [drawnEvery, hd]
      · have hlt : c % P + 1 < P := by
          rcases Nat.lt_or_ge (c % P + 1) P with hlt | hge
          · exact hlt
          · exfalso
            apply hd
            have : c % P + 1 = P := by omega
            refine ⟨c / P + 1, ?_⟩
            rw [Nat.mul_add, Nat.mul_one]; omega
        obtain ⟨i1, i2⟩ := e3 (by rw [hix, hst]; omega)
        obtain ⟨s3, a1, a2⟩ := ih (c + 1) s' hs' (by rw [e1, hst])
          (by
            rw [i1, hix, Nat.add_mod c 1, Nat.mod_eq_of_lt (a := 1) (by omega),
              Nat.mod_eq_of_lt hlt]) hr'
        refine ⟨s3, by simp [after, e, a1], ?_⟩
        rw [a2, i2]
        simp [drawnEvery, hd]
  obtain ⟨s, h1, h2⟩ := gen rs 0 (init n ns draws) (init_inv n hn ns draws)
    (by rw [hP]; cases ns <;> rfl) (by simp [init]) hrs
  exact ⟨s, h1, h2⟩

/-- **C09** (what the default parameters do) With one pair and the default period of two
steps, the pair used at every second step is a fresh one, in the order (drawn, partner): the
branch that exchanges the two shifts of the pair never has an effect. -/
theorem C09_default_exchange_is_overwritten (draws : Fin 1 → D → K) (r1 r2 : Rand D K) :
    run (init 1 none draws) [r1, r2]
      = some [phasesRandom (draws 0), phasesRandom r2.alpha] := by
  simp [run, get, init]

/-- **C09** (finding: MPI) Two processes that hold parts of the same fields use different
shifts unless their generators happen to give the same numbers: nothing in the code makes the
draws common. -/
theorem C09_mpi_ranks_violated :
    ¬ ∀ (draws0 draws1 : Fin 1 → Unit → ℚ) (rs0 rs1 : List (Rand Unit ℚ)),
      rs0.length = rs1.length →
      run (init 1 none draws0) rs0 = run (init 1 none draws1) rs1 := by
  intro h
  have h1 := h (fun _ _ => 0) (fun _ _ => 1 / 4) [⟨0, false, fun _ => 0⟩]
    [⟨0, false, fun _ => 0⟩] rfl
  simp only [run, get, init, phasesRandom] at h1
  simp at h1
  have := congrFun h1.1 ()
  norm_num at this

/-- non-vacuity: a history with regeneration that meets the hypotheses -/
example : (⟨1, true, fun _ => -1 / 4⟩ : Rand (Fin 2) ℚ).ok 3 := by
  simp [Rand.ok]

end Verif.PhasePool
