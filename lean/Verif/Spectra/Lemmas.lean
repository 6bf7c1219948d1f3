import Verif.Spectra.Spec
import Mathlib.Tactic.Ring
import Mathlib.Tactic.Linarith

namespace Verif.Spectra

variable {R : Type*}

theorem oneOutOf_append (p : ℕ) (l : List R) (r : R) :
    oneOutOf p (l ++ [r]) = oneOutOf p l ++ if l.length % p = 0 then [r] else [] := by
  unfold oneOutOf
  rw [List.zipIdx_append]
  simp only [List.zipIdx_cons, List.zipIdx_nil, List.filter_append, List.map_append, Nat.zero_add]
  congr 1
  by_cases h : l.length % p = 0 <;> simp [h]

/-- The state after complete events. -/
structure Inv (p : ℕ) (l : List R) (K : List R) (s : St R) : Prop where
  f1 : s.disk.f1 = some l
  f3 : s.disk.f3 = some l
  fk : s.disk.fk = if p = 0 then none else some K
  obj : s.obj = some ⟨l.length, p⟩
  errs : s.errs = []

theorem hasToSave_iff (o : Obj) : hasToSave o = true ↔ o.period ≠ 0 ∧ o.nb % o.period = 0 := by
  simp [hasToSave]

theorem inv_first (p : ℕ) (r : R) : Inv p [r] [r] (step empty (.start p r)) := by
  by_cases hp : p = 0
  · subst hp
    refine ⟨?_, ?_, ?_, ?_, ?_⟩ <;>
      simp [step, empty, initOps, applyAll, apply, create, Except.map]
  · have h0 : hasToSave ⟨0, p⟩ = true := by simp [hasToSave, hp]
    refine ⟨?_, ?_, ?_, ?_, ?_⟩ <;>
      simp [step, empty, initOps, applyAll, apply, create, Except.map, hp, computeKzkh, h0]

theorem inv_start {p : ℕ} {l K : List R} {s : St R} (h : Inv p l K s) (r : R) :
    Inv p (l ++ [r]) (K ++ if (l.length + 1) % p = 0 then [r] else []) (step s (.start p r)) := by
  obtain ⟨h1, h3, hk, ho, he⟩ := h
  by_cases hp : p = 0
  · subst hp
    have hs : ∀ n, hasToSave ⟨n, 0⟩ = false := fun n => by simp [hasToSave]
    refine ⟨?_, ?_, ?_, ?_, ?_⟩ <;>
      simp [step, initOps, applyAll, apply, add, Except.map, h1, h3, hs, he, hk]
  · have h0 : hasToSave ⟨0, p⟩ = true := by simp [hasToSave, hp]
    by_cases hc : (l.length + 1) % p = 0
    · have hs : hasToSave ⟨l.length + 1, p⟩ = true := by simp [hasToSave, hp, hc]
      refine ⟨?_, ?_, ?_, ?_, ?_⟩ <;>
        simp [step, initOps, applyAll, apply, add, Except.map, h1, h3, hs, he, hk, computeKzkh,
          h0, hp, hc]
    · have hs : hasToSave ⟨l.length + 1, p⟩ = false := by simp [hasToSave, hc]
      refine ⟨?_, ?_, ?_, ?_, ?_⟩ <;>
        simp [step, initOps, applyAll, apply, add, Except.map, h1, h3, hs, he, hk, hp, hc]

theorem inv_save {p : ℕ} {l K : List R} {s : St R} (h : Inv p l K s) (r : R) :
    Inv p (l ++ [r]) (K ++ if l.length % p = 0 then [r] else []) (step s (.save r)) := by
  obtain ⟨h1, h3, hk, ho, he⟩ := h
  by_cases hp : p = 0
  · subst hp
    have hs : ∀ n, hasToSave ⟨n, 0⟩ = false := fun n => by simp [hasToSave]
    refine ⟨?_, ?_, ?_, ?_, ?_⟩ <;>
      simp [step, saveOps, applyAll, apply, add, Except.map, h1, h3, hs, he, hk, ho]
  · by_cases hc : l.length % p = 0
    · have hs : hasToSave ⟨l.length, p⟩ = true := by simp [hasToSave, hp, hc]
      refine ⟨?_, ?_, ?_, ?_, ?_⟩ <;>
        simp [step, saveOps, applyAll, apply, add, Except.map, h1, h3, hs, he, hk, computeKzkh,
          hp, hc, ho]
    · have hs : hasToSave ⟨l.length, p⟩ = false := by simp [hasToSave, hc]
      refine ⟨?_, ?_, ?_, ?_, ?_⟩ <;>
        simp [step, saveOps, applyAll, apply, add, Except.map, h1, h3, hs, he, hk, hp, hc, ho]

theorem inv_saves {p : ℕ} (rs : List R) : ∀ {l K : List R} {s : St R}, Inv p l K s →
    ∃ K', Inv p (l ++ rs) K' ((rs.map Ev.save).foldl step s) ∧
      (K = oneOutOf p l → K' = oneOutOf p (l ++ rs)) := by
  induction rs with
  | nil => intro l K s h; exact ⟨K, by simpa using h, by simp⟩
  | cons r rs ih =>
    intro l K s h
    obtain ⟨K', h', e⟩ := ih (inv_save h r)
    refine ⟨K', by simpa using h', fun hK => ?_⟩
    rw [e (by rw [oneOutOf_append, hK])]; simp

/-- The records of the (kz, kh) file, from all the records, those of a restart being marked. -/
def kzkhMarked (p : ℕ) (l : List (Bool × R)) : List R :=
  (l.zipIdx.filter fun x =>
    if x.1.1 = true ∧ x.2 ≠ 0 then (x.2 + 1) % p = 0 else x.2 % p = 0).map fun x => x.1.2

theorem kzkhMarked_append (p : ℕ) (l : List (Bool × R)) (b : Bool) (r : R) :
    kzkhMarked p (l ++ [(b, r)]) = kzkhMarked p l ++
      if (if b = true ∧ l.length ≠ 0 then (l.length + 1) % p = 0 else l.length % p = 0)
        then [r] else [] := by
  unfold kzkhMarked
  rw [List.zipIdx_append]
  simp only [List.zipIdx_cons, List.zipIdx_nil, List.filter_append, List.map_append, Nat.zero_add]
  congr 1
  by_cases h : (if b = true ∧ l.length ≠ 0 then (l.length + 1) % p = 0 else l.length % p = 0)
  · rw [if_pos h]; rw [List.filter_cons_of_pos (by simpa using h)]; simp
  · rw [if_neg h]; rw [List.filter_cons_of_neg (by simpa using h)]; simp

theorem inv_saves_marked {p : ℕ} (rs : List R) : ∀ {l : List (Bool × R)} {s : St R},
    Inv p (l.map Prod.snd) (kzkhMarked p l) s →
    Inv p ((l ++ rs.map fun r => (false, r)).map Prod.snd)
      (kzkhMarked p (l ++ rs.map fun r => (false, r))) ((rs.map Ev.save).foldl step s) := by
  induction rs with
  | nil => intro l s h; simpa using h
  | cons r rs ih =>
    intro l s h
    have h' := inv_save h r
    have := ih (l := l ++ [(false, r)]) (s := step s (.save r)) (by
      rw [kzkhMarked_append]; simpa using h')
    simpa using this

theorem inv_sessions {p : ℕ} (ss : List (Session R)) : ∀ {l : List (Bool × R)} {s : St R},
    l ≠ [] → Inv p (l.map Prod.snd) (kzkhMarked p l) s →
    Inv p ((l ++ marked ss).map Prod.snd) (kzkhMarked p (l ++ marked ss))
      ((history p ss).foldl step s) := by
  induction ss with
  | nil => intro l s _ h; simpa [marked, history] using h
  | cons a ss ih =>
    intro l s hl h
    have h1 := inv_start h a.1
    have h2 : Inv p ((l ++ [(true, a.1)]).map Prod.snd) (kzkhMarked p (l ++ [(true, a.1)]))
        (step s (.start p a.1)) := by
      rw [kzkhMarked_append]
      have : l.length ≠ 0 := by simpa using hl
      simpa [this] using h1
    have h3 := inv_saves_marked a.2 h2
    have h4 := ih (by simp) h3
    have e1 : history p (a :: ss) = .start p a.1 :: (a.2.map .save ++ history p ss) := by
      simp [history]
    have e2 : marked (a :: ss) = [(true, a.1)] ++ ((a.2.map fun r => (false, r)) ++ marked ss) := by
      simp [marked]
    rw [e1, e2, List.foldl_cons, List.foldl_append]
    simpa [List.append_assoc] using h4

theorem inv_run {p : ℕ} (a : Session R) (ss : List (Session R)) :
    Inv p ((marked (a :: ss)).map Prod.snd) (kzkhMarked p (marked (a :: ss)))
      (run (history p (a :: ss))) := by
  have h0 : Inv p (([(true, a.1)] : List (Bool × R)).map Prod.snd)
      (kzkhMarked p [(true, a.1)]) (step empty (.start p a.1)) := by
    have := inv_first p a.1
    simpa [kzkhMarked] using this
  have h4 := inv_sessions ss (l := [(true, a.1)] ++ a.2.map fun r => (false, r)) (by simp)
    (inv_saves_marked a.2 h0)
  have e1 : history p (a :: ss) = .start p a.1 :: (a.2.map .save ++ history p ss) := by
    simp [history]
  have e2 : marked (a :: ss) = [(true, a.1)] ++ (a.2.map fun r => (false, r)) ++ marked ss := by
    simp [marked]
  rw [e1, e2, run, List.foldl_cons, List.foldl_append]
  exact h4

theorem marked_snd (ss : List (Session R)) : (marked ss).map Prod.snd = records ss := by
  induction ss with
  | nil => rfl
  | cons a ss ih =>
    simp only [marked, records, List.flatMap_cons, List.map_append] at *
    rw [ih]; simp [Function.comp_def]

/-! ### Kills -/

/-- What is kept in all histories after a complete first start. -/
structure Inv2 (P : ℕ → Prop) (l1 l3 : List R) (alive : Bool) (s : St R) : Prop where
  f1 : s.disk.f1 = some l1
  f3 : s.disk.f3 = some l3
  fk : (s.disk.fk = none ∧ ∀ p, P p → p = 0) ∨ ∃ K, s.disk.fk = some K ∧ K.Sublist l3
  obj : if alive then ∃ o, s.obj = some o ∧ P o.period else s.obj = none
  errs : s.errs = []

theorem applyAll_cons_ok {d d' : Disk R} {op : Op R} (ops : List (Op R))
    (h : apply d op = .ok d') : applyAll d (op :: ops) = applyAll d' ops := by
  simp [applyAll, h]

theorem applyAll_add (d : Disk R) (l1 l3 : List R) (h1 : d.f1 = some l1) (h3 : d.f3 = some l3)
    (r : R) (b : Bool) (P : ℕ → Prop) (p : ℕ) (hP : P p) (hb : b = true → p ≠ 0)
    (hk : (d.fk = none ∧ ∀ p, P p → p = 0) ∨ ∃ K, d.fk = some K ∧ K.Sublist l3) (m : ℕ) :
    ∃ d', applyAll d ((([.add1 r, .add3 r] : List (Op R)) ++
        (if b = true then [Op.addk (some r)] else [])).take m) = (d', none) ∧
      d'.f1 = some (if 1 ≤ m then l1 ++ [r] else l1) ∧
      d'.f3 = some (if 2 ≤ m then l3 ++ [r] else l3) ∧
      ((d'.fk = none ∧ ∀ p, P p → p = 0) ∨
        ∃ K, d'.fk = some K ∧ K.Sublist (if 2 ≤ m then l3 ++ [r] else l3)) := by
  match m with
  | 0 => exact ⟨d, by simp [applyAll], by simp [h1], by simp [h3], by simpa using hk⟩
  | 1 =>
    exact ⟨{ d with f1 := some (l1 ++ [r]) },
      by simp [applyAll, apply, add, h1, Except.map], by simp, by simp [h3], by simpa using hk⟩
  | m + 2 =>
    by_cases hbb : b = true ∧ m ≠ 0
    · obtain ⟨hbt, hm⟩ := hbb
      rcases hk with ⟨-, hz⟩ | ⟨K, hK, hs⟩
      · exact absurd (hz p hP) (hb hbt)
      · refine ⟨⟨some (l1 ++ [r]), some (l3 ++ [r]), some (K ++ [r])⟩, ?_, by simp, by simp,
          Or.inr ⟨_, rfl, by simpa using hs⟩⟩
        obtain ⟨m, rfl⟩ := Nat.exists_eq_succ_of_ne_zero hm
        simp [applyAll, apply, add, h1, h3, Except.map, hbt, hK]
    · refine ⟨⟨some (l1 ++ [r]), some (l3 ++ [r]), d.fk⟩, ?_, by simp, by simp, ?_⟩
      · have : ((if b = true then [Op.addk (some r)] else []) : List (Op R)).take m = [] := by
          by_cases hbt : b = true
          · have : m = 0 := by by_contra hm; exact hbb ⟨hbt, hm⟩
            simp [this]
          · simp [hbt]
        simp only [List.cons_append, List.nil_append, List.take_succ_cons, this]
        simp [applyAll, apply, add, h1, h3, Except.map]
      · rcases hk with h | ⟨K, hK, hs⟩
        · exact Or.inl h
        · exact Or.inr ⟨K, hK, hs.trans (by simp)⟩

theorem initOps_some (d : Disk R) (l1 : List R) (h1 : d.f1 = some l1) (p : ℕ) (r : R) :
    initOps d p r = (([.add1 r, .add3 r] : List (Op R)) ++
      (if hasToSave ⟨l1.length + 1, p⟩ = true then [Op.addk (some r)] else []), l1.length + 1) := by
  unfold initOps
  rw [h1]
  by_cases hs : hasToSave ⟨l1.length + 1, p⟩ = true
  · have hp : p ≠ 0 := ((hasToSave_iff _).1 hs).1
    have h0 : hasToSave ⟨0, p⟩ = true := by simp [hasToSave, hp]
    simp [hs, computeKzkh, h0]
  · simp [hs]

theorem saveOps_eq (o : Obj) (r : R) : saveOps o r = ([.add1 r, .add3 r] : List (Op R)) ++
      (if hasToSave o = true then [Op.addk (some r)] else []) := by
  unfold saveOps
  by_cases hs : hasToSave o = true <;> simp [hs, computeKzkh]

theorem take_all (r : R) (b : Bool) : (([.add1 r, .add3 r] : List (Op R)) ++
      (if b = true then [Op.addk (some r)] else [])).take 3 = ([.add1 r, .add3 r] : List (Op R)) ++
      (if b = true then [Op.addk (some r)] else []) := by
  cases b <;> simp

theorem inv2_run {P : ℕ → Prop} (h : List (Ev R)) (hP : Periods P h) :
    ∀ {l1 l3 : List R} {alive : Bool} {s : St R}, Inv2 P l1 l3 alive s →
    ∃ alive', Inv2 P (l1 ++ written 1 alive h) (l3 ++ written 2 alive h) alive'
      (h.foldl step s) := by
  induction h with
  | nil => intro l1 l3 alive s hi; exact ⟨alive, by simpa [written] using hi⟩
  | cons e h ih =>
    intro l1 l3 alive s hi
    have hPh : Periods P h := fun e' he' => hP e' (List.mem_cons_of_mem _ he')
    have hPe := hP e (List.mem_cons_self ..)
    obtain ⟨h1, h3, hk, ho, he⟩ := hi
    rw [List.foldl_cons]
    cases e with
    | start p r =>
      obtain ⟨d', e1, e2, e3, e4⟩ := applyAll_add s.disk l1 l3 h1 h3 r
        (hasToSave ⟨l1.length + 1, p⟩) P p hPe (fun hb => ((hasToSave_iff _).1 hb).1) hk 3
      rw [take_all] at e1
      have hi' : Inv2 P (l1 ++ [r]) (l3 ++ [r]) true (step s (.start p r)) := by
        refine ⟨?_, ?_, ?_, ?_, ?_⟩ <;> simp only [step, initOps_some _ _ h1, e1]
        · simpa using e2
        · simpa using e3
        · simpa using e4
        · simpa using hPe
        · exact he
      obtain ⟨al, hh⟩ := ih hPh hi'
      exact ⟨al, by cases alive <;> simpa [written] using hh⟩
    | save r =>
      cases alive with
      | false =>
        have hn : s.obj = none := by simpa using ho
        have : step s (.save r) = s := by simp [step, hn]
        rw [this]
        obtain ⟨al, hh⟩ := ih hPh ⟨h1, h3, hk, ho, he⟩
        exact ⟨al, by simpa [written] using hh⟩
      | true =>
        obtain ⟨o, hoo, hop⟩ : ∃ o, s.obj = some o ∧ P o.period := by simpa using ho
        obtain ⟨d', e1, e2, e3, e4⟩ := applyAll_add s.disk l1 l3 h1 h3 r
          (hasToSave o) P o.period hop (fun hb => ((hasToSave_iff _).1 hb).1) hk 3
        rw [take_all] at e1
        have hi' : Inv2 P (l1 ++ [r]) (l3 ++ [r]) true (step s (.save r)) := by
          refine ⟨?_, ?_, ?_, ?_, ?_⟩ <;> simp only [step, hoo, saveOps_eq, e1]
          · simpa using e2
          · simpa using e3
          · simpa using e4
          · simpa using hop
          · exact he
        obtain ⟨al, hh⟩ := ih hPh hi'
        exact ⟨al, by simpa [written] using hh⟩
    | killStart m p r =>
      obtain ⟨d', e1, e2, e3, e4⟩ := applyAll_add s.disk l1 l3 h1 h3 r
        (hasToSave ⟨l1.length + 1, p⟩) P p hPe (fun hb => ((hasToSave_iff _).1 hb).1) hk m
      have hi' : Inv2 P (if 1 ≤ m then l1 ++ [r] else l1) (if 2 ≤ m then l3 ++ [r] else l3) false
          (step s (.killStart m p r)) := by
        refine ⟨?_, ?_, ?_, ?_, ?_⟩ <;> simp only [step, initOps_some _ _ h1, e1]
        · exact e2
        · exact e3
        · exact e4
        · simp
        · exact he
      obtain ⟨al, hh⟩ := ih hPh hi'
      refine ⟨al, ?_⟩
      have w : ∀ j, written j alive (.killStart m p r :: h) =
          if j ≤ m then r :: written j false h else written j false h := by
        intro j; cases alive <;> rfl
      rw [w, w]
      convert hh using 1
      · split <;> simp
      · split <;> simp
    | killSave m r =>
      cases alive with
      | false =>
        have hn : s.obj = none := by simpa using ho
        have : step s (.killSave m r) = s := by simp [step, hn]
        rw [this]
        obtain ⟨al, hh⟩ := ih hPh ⟨h1, h3, hk, ho, he⟩
        exact ⟨al, by simpa [written] using hh⟩
      | true =>
        obtain ⟨o, hoo, hop⟩ : ∃ o, s.obj = some o ∧ P o.period := by simpa using ho
        obtain ⟨d', e1, e2, e3, e4⟩ := applyAll_add s.disk l1 l3 h1 h3 r
          (hasToSave o) P o.period hop (fun hb => ((hasToSave_iff _).1 hb).1) hk m
        have hi' : Inv2 P (if 1 ≤ m then l1 ++ [r] else l1) (if 2 ≤ m then l3 ++ [r] else l3) false
            (step s (.killSave m r)) := by
          refine ⟨?_, ?_, ?_, ?_, ?_⟩ <;> simp only [step, hoo, saveOps_eq, e1]
          · exact e2
          · exact e3
          · exact e4
          · simp
          · exact he
        obtain ⟨al, hh⟩ := ih hPh hi'
        refine ⟨al, ?_⟩
        have w : ∀ j, written j true (.killSave m r :: h) =
            if j ≤ m then r :: written j false h else written j false h := by
          intro j; rfl
        rw [w, w]
        convert hh using 1
        · split <;> simp
        · split <;> simp

theorem apply_fk_none {d d' : Disk R} {op : Op R} (h : apply d op = .ok d') (hk : d.fk = none)
    (ho : ∀ k, op ≠ .createk k) : d'.fk = none := by
  cases op with
  | add1 r => cases h1 : d.f1 <;> simp [apply, add, Except.map, h1] at h; rw [← h]; exact hk
  | add3 r => cases h1 : d.f3 <;> simp [apply, add, Except.map, h1] at h; rw [← h]; exact hk
  | addk r => simp [apply, add, Except.map, hk] at h
  | create1 r => cases h1 : d.f1 <;> simp [apply, create, Except.map, h1] at h <;> rw [← h] <;> exact hk
  | create3 r => cases h1 : d.f3 <;> simp [apply, create, Except.map, h1] at h <;> rw [← h] <;> exact hk
  | createk r => exact absurd rfl (ho r)

theorem applyAll_fk_none (ops : List (Op R)) : ∀ (d : Disk R), d.fk = none →
    (∀ op ∈ ops, ∀ k, op ≠ .createk k) → (applyAll d ops).1.fk = none := by
  induction ops with
  | nil => intro d h _; exact h
  | cons op ops ih =>
    intro d h ho
    simp only [applyAll]
    split
    · rename_i d' hd
      exact ih d' (apply_fk_none hd h (ho op (List.mem_cons_self ..)))
        fun op' h' => ho op' (List.mem_cons_of_mem _ h')
    · exact h

theorem fk_none (h : List (Ev R)) (hP : Periods (· = 0) h) :
    ∀ {l1 l3 : List R} {alive : Bool} {s : St R}, Inv2 (· = 0) l1 l3 alive s → s.disk.fk = none →
      (h.foldl step s).disk.fk = none := by
  induction h with
  | nil => intro l1 l3 alive s _ hn; exact hn
  | cons e h ih =>
    intro l1 l3 alive s hi hn
    have hPe : Periods (· = 0) [e] := fun e' he' => hP e' (by simp_all)
    have hPh : Periods (· = 0) h := fun e' he' => hP e' (List.mem_cons_of_mem _ he')
    obtain ⟨al, hi'⟩ := inv2_run [e] hPe hi
    refine ih hPh hi' ?_
    have nok : ∀ (r : R) (b : Bool) (m : ℕ), ∀ op ∈ ((([.add1 r, .add3 r] : List (Op R)) ++
        (if b = true then [Op.addk (some r)] else [])).take m), ∀ k, op ≠ .createk k := by
      intro r b m op hop k
      have := List.mem_of_mem_take hop
      cases b <;> simp at this <;> rcases this with rfl | rfl | rfl <;> simp
    show (step s e).disk.fk = none
    cases e with
    | start p r =>
      have := applyAll_fk_none _ s.disk hn (nok r (hasToSave ⟨l1.length + 1, p⟩) 3)
      rw [take_all] at this
      simp only [step, initOps_some _ _ hi.f1]
      split <;> (rename_i heq; rw [heq] at this; exact this)
    | save r =>
      simp only [step]
      split
      · exact hn
      · rename_i o _
        have := applyAll_fk_none _ s.disk hn (nok r (hasToSave o) 3)
        rw [take_all, ← saveOps_eq] at this
        split <;> (rename_i heq; rw [heq] at this; exact this)
    | killStart m p r =>
      simp only [step, initOps_some _ _ hi.f1]
      exact applyAll_fk_none _ s.disk hn (nok r _ m)
    | killSave m r =>
      simp only [step]
      split
      · exact hn
      · rename_i o _
        simp only [saveOps_eq]
        exact applyAll_fk_none _ s.disk hn (nok r (hasToSave o) m)

theorem errs_step (s : St R) (e : Ev R) : ∃ l, (step s e).errs = s.errs ++ l := by
  cases e with
  | start p r =>
    simp only [step]; split
    · exact ⟨[], by simp⟩
    · exact ⟨_, rfl⟩
  | save r =>
    simp only [step]; split
    · exact ⟨[], by simp⟩
    · split
      · exact ⟨[], by simp⟩
      · exact ⟨_, rfl⟩
  | killStart m p r => exact ⟨[], by simp [step]⟩
  | killSave m r => simp only [step]; split <;> exact ⟨[], by simp⟩

theorem errs_mono (h : List (Ev R)) : ∀ (s : St R), s.errs ≠ [] → (h.foldl step s).errs ≠ [] := by
  induction h with
  | nil => intro s hs; exact hs
  | cons e h ih =>
    intro s hs
    apply ih
    obtain ⟨l, hl⟩ := errs_step s e
    rw [hl]; simp [hs]

theorem no_file_raises (p : ℕ) (hp : p ≠ 0) (later : List R) : ∀ (s : St R) (nb : ℕ)
    (l1 l3 : List R), s.disk.f1 = some l1 → s.disk.f3 = some l3 → s.disk.fk = none →
    s.obj = some ⟨nb, p⟩ → p ≤ later.length → ((later.map Ev.save).foldl step s).errs ≠ [] := by
  have key : ∀ (later : List R) (s : St R) (nb : ℕ) (l1 l3 : List R), s.disk.f1 = some l1 →
      s.disk.f3 = some l3 → s.disk.fk = none → s.obj = some ⟨nb, p⟩ →
      (∃ j < later.length, (nb + j) % p = 0) → ((later.map Ev.save).foldl step s).errs ≠ [] := by
    intro later
    induction later with
    | nil => rintro s nb l1 l3 - - - - ⟨j, hj, -⟩; simp at hj
    | cons r rs ih =>
      rintro s nb l1 l3 h1 h3 hk ho ⟨j, hj, hm⟩
      rw [List.map_cons, List.foldl_cons]
      by_cases hs : hasToSave ⟨nb, p⟩ = true
      · apply errs_mono
        simp [step, ho, saveOps, applyAll, apply, add, Except.map, h1, h3, hs, hk]
      · have hs' : hasToSave ⟨nb, p⟩ = false := by simpa using hs
        cases j with
        | zero =>
          exfalso; apply hs
          rw [hasToSave_iff]; exact ⟨hp, by simpa using hm⟩
        | succ j =>
          refine ih _ (nb + 1) (l1 ++ [r]) (l3 ++ [r]) ?_ ?_ ?_ ?_
            ⟨j, by simpa using hj, by rw [← hm]; congr 1; omega⟩ <;>
          simp [step, ho, saveOps, applyAll, apply, add, Except.map, h1, h3, hs', hk]
  intro s nb l1 l3 h1 h3 hk ho hl
  refine key later s nb l1 l3 h1 h3 hk ho ?_
  have hpos : 0 < p := Nat.pos_of_ne_zero hp
  rcases Nat.eq_zero_or_pos (nb % p) with h | h
  · exact ⟨0, by omega, by simpa using h⟩
  · refine ⟨p - nb % p, by omega, ?_⟩
    have hlt := Nat.mod_lt nb hpos
    have e := Nat.div_add_mod nb p
    have : nb + (p - nb % p) = p * (nb / p) + p := by omega
    rw [this]; simp

end Verif.Spectra
