import Verif.VarCache.Spec

namespace Verif.VarCache

variable {St V : Type}

theorem evalSubs_mono {e e' : Access → String → Res V}
    (h : ∀ a k, e a k ≠ .fuel → e' a k = e a k) :
    ∀ subs, evalSubs e subs ≠ .inl .fuel → evalSubs e' subs = evalSubs e subs
  | [], _ => rfl
  | (a, k) :: subs, hne => by
    simp only [evalSubs] at hne ⊢
    cases hv : e a k with
    | fuel => simp [hv] at hne
    | valueError => rw [h a k (by simp [hv]), hv]
    | ok v =>
      rw [h a k (by simp [hv]), hv]
      simp only [hv] at hne
      have : evalSubs e subs ≠ .inl .fuel := by
        intro hc; simp [hc] at hne
      rw [evalSubs_mono h subs this]

theorem eval_mono (sys : Sys St V) (st : St) (n : Nat) (a : Access) (k : String)
    (h : eval sys st n a k ≠ .fuel) : eval sys st (n + 1) a k = eval sys st n a k := by
  induction n generalizing a k with
  | zero => exact absurd rfl h
  | succ n ih =>
    cases a with
    | getVar =>
      simp only [eval] at h ⊢
      cases hs : sys.stored k with
      | some f => rfl
      | none =>
        simp only [hs] at h
        exact ih _ _ h
    | compute =>
      rw [eval] at h ⊢
      rw [eval]
      cases hf : sys.formula k with
      | none => rfl
      | some p =>
        obtain ⟨subs, f⟩ := p
        simp only [hf] at h ⊢
        have hne : evalSubs (eval sys st n) subs ≠ .inl .fuel := by
          intro hc; simp [hc] at h
        rw [evalSubs_mono (e := eval sys st n) (e' := eval sys st (n + 1))
          (fun a k hh => ih a k hh) subs hne]

theorem eval_mono_le (sys : Sys St V) (st : St) {n m : Nat} (hnm : n ≤ m) (a : Access)
    (k : String) (h : eval sys st n a k ≠ .fuel) : eval sys st m a k = eval sys st n a k := by
  induction hnm with
  | refl => rfl
  | step _ ih => rw [eval_mono _ _ _ _ _ (by rw [ih]; exact h), ih]

/-- every valid entry of the cache is the value for the present arrays -/
def Fresh (sys : Sys St V) (o : Obj St V) : Prop :=
  ∀ k v, o.cached k = some v → IsValue sys o.st .compute k v

/-- no entry comes from a later iteration -/
def Past (o : Obj St V) : Prop := ∀ k i, o.itc k = some i → i ≤ o.it

theorem cached_save (o : Obj St V) (k k' : String) (v : V) :
    (o.save k v).cached k' = if k' = k then some v else o.cached k' := by
  unfold Obj.save Obj.cached
  by_cases h : k' = k <;> simp [h]

theorem save_fresh {sys : Sys St V} {o : Obj St V} (h : Fresh sys o) {k : String} {v : V}
    (hv : IsValue sys o.st .compute k v) : Fresh sys (o.save k v) := by
  intro k' v' hc
  rw [cached_save] at hc
  by_cases hk : k' = k
  · simp [hk] at hc; subst hc; subst hk; exact hv
  · simp [hk] at hc; exact h k' v' hc

theorem save_past {o : Obj St V} (h : Past o) (k : String) (v : V) : Past (o.save k v) := by
  intro k' i hi
  simp only [Obj.save] at hi ⊢
  split at hi
  · cases hi; exact Nat.le_refl _
  · exact h k' i hi

/-- What a call guarantees when the cache is fresh. -/
def Good (sys : Sys St V) (o : Obj St V) (a : Access) (k : String) (r : Obj St V × Res V) : Prop :=
  r.1.st = o.st ∧ r.1.it = o.it ∧ Fresh sys r.1 ∧ (Past o → Past r.1) ∧
    (∀ v, r.2 = .ok v → IsValue sys o.st a k v) ∧
    (r.2 = .valueError → ∃ n, eval sys o.st n a k = .valueError)

/-- same, for the sub-calls -/
def GoodSubs (sys : Sys St V) (o : Obj St V) (subs : List (Access × String))
    (r : Obj St V × (Res V ⊕ List V)) : Prop :=
  r.1.st = o.st ∧ r.1.it = o.it ∧ Fresh sys r.1 ∧ (Past o → Past r.1) ∧
    (∀ vs, r.2 = .inr vs → ∃ n, evalSubs (eval sys o.st n) subs = .inr vs) ∧
    (∀ v, r.2 ≠ .inl (.ok v)) ∧
    (r.2 = .inl .valueError → ∃ n, evalSubs (eval sys o.st n) subs = .inl .valueError)

theorem evalSubs_lift {sys : Sys St V} {st : St} {n m : Nat} (hnm : n ≤ m)
    {subs : List (Access × String)} (h : evalSubs (eval sys st n) subs ≠ .inl .fuel) :
    evalSubs (eval sys st m) subs = evalSubs (eval sys st n) subs :=
  evalSubs_mono (fun a k hh => eval_mono_le sys st hnm a k hh) subs h

theorem subsLoop_good (sys : Sys St V) (c : Obj St V → Access → String → Obj St V × Res V)
    (hc : ∀ o a k, Fresh sys o → Good sys o a k (c o a k)) :
    ∀ (subs : List (Access × String)) (o : Obj St V), Fresh sys o →
      GoodSubs sys o subs (subsLoop c o subs)
  | [], o, ho => ⟨rfl, rfl, ho, id, fun vs h => ⟨0, by simpa [evalSubs, subsLoop] using h⟩,
      fun v h => by simp [subsLoop] at h, fun h => by simp [subsLoop] at h⟩
  | (a, k) :: subs, o, ho => by
    have hg := hc o a k ho
    unfold subsLoop
    cases hr : c o a k with
    | mk o1 r =>
      rw [hr] at hg
      obtain ⟨h1, h2, h3, h4, h5, h6⟩ := hg
      simp only at h1 h2 h3 h4
      cases r with
      | fuel =>
        refine ⟨h1, h2, h3, h4, fun vs h => by simp at h, fun v h => by simp at h,
          fun h => by simp at h⟩
      | valueError =>
        refine ⟨h1, h2, h3, h4, fun vs h => by simp at h, fun v h => by simp at h, fun _ => ?_⟩
        obtain ⟨n, hn⟩ := h6 rfl
        exact ⟨n, by simp [evalSubs, hn]⟩
      | ok v =>
        have ih := subsLoop_good sys c hc subs o1 h3
        simp only
        cases hr2 : subsLoop c o1 subs with
        | mk o2 r2 =>
          rw [hr2] at ih
          obtain ⟨g1, g2, g3, g4, g5, g6, g7⟩ := ih
          simp only at g1 g2 g3 g4
          obtain ⟨n, hn⟩ := h5 v rfl
          cases r2 with
          | inl r =>
            refine ⟨g1.trans h1, g2.trans h2, g3, fun hp => g4 (h4 hp), fun vs h => by simp at h,
              fun w h => g6 w (by simpa using h), fun h => ?_⟩
            obtain ⟨m, hm⟩ := g7 (by simpa using h)
            rw [h1] at hm
            refine ⟨max n m, ?_⟩
            simp only [evalSubs]
            rw [eval_mono_le sys o.st (Nat.le_max_left n m) a k (by rw [hn]; simp), hn]
            simp only
            rw [evalSubs_lift (Nat.le_max_right n m) (by rw [hm]; simp), hm]
          | inr vs =>
            refine ⟨g1.trans h1, g2.trans h2, g3, fun hp => g4 (h4 hp), fun vs' h => ?_,
              fun w h => by simp at h, fun h => by simp at h⟩
            obtain ⟨m, hm⟩ := g5 vs rfl
            rw [h1] at hm
            simp only [Sum.inr.injEq] at h
            subst h
            refine ⟨max n m, ?_⟩
            simp only [evalSubs]
            rw [eval_mono_le sys o.st (Nat.le_max_left n m) a k (by rw [hn]; simp), hn]
            simp only
            rw [evalSubs_lift (Nat.le_max_right n m) (by rw [hm]; simp), hm]

theorem call_good (sys : Sys St V) (n : Nat) : ∀ (o : Obj St V) (a : Access) (k : String)
    (save : Bool), Fresh sys o → Good sys o a k (call sys n o a k save true) := by
  induction n with
  | zero =>
    intro o a k save ho
    exact ⟨rfl, rfl, ho, id, fun v h => by simp [call] at h, fun h => by simp [call] at h⟩
  | succ n ih =>
    intro o a k save ho
    cases a with
    | getVar =>
      simp only [call]
      cases hs : sys.stored k with
      | some f =>
        refine ⟨rfl, rfl, ho, id, fun v h => ⟨1, ?_⟩, fun h => by simp at h⟩
        simpa [eval, hs] using h
      | none =>
        simp only
        cases hcv : o.cached k with
        | some v =>
          refine ⟨rfl, rfl, ho, id, fun v' h => ?_, fun h => by simp at h⟩
          simp only [Res.ok.injEq] at h
          subst h
          obtain ⟨m, hm⟩ := ho k v hcv
          exact ⟨m + 1, by simp [eval, hs, hm]⟩
        | none =>
          have hg := ih o .compute k true ho
          cases hr : call sys n o .compute k true true with
          | mk o1 r =>
            rw [hr] at hg
            obtain ⟨h1, h2, h3, h4, h5, h6⟩ := hg
            simp only at h1 h2 h3 h4
            cases r with
            | fuel => exact ⟨h1, h2, h3, h4, fun v h => by simp at h, fun h => by simp at h⟩
            | valueError =>
              refine ⟨h1, h2, h3, h4, fun v h => by simp at h, fun _ => ?_⟩
              obtain ⟨m, hm⟩ := h6 rfl
              exact ⟨m + 1, by simp [eval, hs, hm]⟩
            | ok v =>
              have hv := h5 v rfl
              refine ⟨h1, h2, save_fresh h3 (by rw [h1]; exact hv),
                fun hp => save_past (h4 hp) _ _, fun v' h => ?_, fun h => by simp at h⟩
              simp only [Res.ok.injEq] at h
              subst h
              obtain ⟨m, hm⟩ := hv
              exact ⟨m + 1, by simp [eval, hs, hm]⟩
    | compute =>
      simp only [call]
      cases hcv : o.cached k with
      | some v =>
        refine ⟨rfl, rfl, ho, id, fun v' h => ?_, fun h => by simp at h⟩
        simp only [Res.ok.injEq] at h
        subst h
        exact ho k v hcv
      | none =>
        simp only
        cases hf : sys.formula k with
        | none =>
          refine ⟨rfl, rfl, ho, id, fun v h => by simp at h, fun _ => ⟨1, by simp [eval, hf]⟩⟩
        | some p =>
          obtain ⟨subs, f⟩ := p
          simp only
          have hg := subsLoop_good sys (fun o a k' => call sys n o a k' true true)
            (fun o a k h => ih o a k true h) subs o ho
          cases hr : subsLoop (fun o a k' => call sys n o a k' true true) o subs with
          | mk o1 r =>
            rw [hr] at hg
            obtain ⟨g1, g2, g3, g4, g5, g6, g7⟩ := hg
            simp only at g1 g2 g3 g4
            cases r with
            | inl r =>
              refine ⟨g1, g2, g3, g4, fun v h => ?_, fun h => ?_⟩
              · exact absurd (by simpa using h) (g6 v)
              · obtain ⟨m, hm⟩ := g7 (by simpa using h)
                exact ⟨m + 1, by simp [eval, hf, hm]⟩
            | inr vs =>
              obtain ⟨m, hm⟩ := g5 vs rfl
              have hv : IsValue sys o.st .compute k (f o1.st vs) := by
                refine ⟨m + 1, ?_⟩
                simp [eval, hf, hm, g1]
              have hv1 : IsValue sys o1.st .compute k (f o1.st vs) := by
                have := hv; rw [← g1] at this; exact this
              refine ⟨?_, ?_, ?_, ?_, ?_, fun h => by simp at h⟩
              · cases save <;> simpa [Obj.save] using g1
              · cases save <;> simpa [Obj.save] using g2
              · cases save
                · exact g3
                · exact save_fresh g3 hv1
              · intro hp
                cases save
                · exact g4 hp
                · exact save_past (g4 hp) _ _
              · intro v h
                simp only [Res.ok.injEq] at h
                subst h
                exact hv

/-! ### valid entries are never modified by a call -/

theorem call_persist (sys : Sys St V) (n : Nat) : ∀ (o : Obj St V) (a : Access) (k : String)
    (save raise : Bool), (call sys n o a k save raise).1.it = o.it ∧
      (call sys n o a k save raise).1.st = o.st ∧
      ∀ k0 v0, o.cached k0 = some v0 → (call sys n o a k save raise).1.cached k0 = some v0 := by
  induction n with
  | zero => intro o a k save raise; exact ⟨rfl, rfl, fun _ _ h => h⟩
  | succ n ih =>
    have hsubs : ∀ (subs : List (Access × String)) (o : Obj St V),
        (subsLoop (fun o a k' => call sys n o a k' true true) o subs).1.it = o.it ∧
        (subsLoop (fun o a k' => call sys n o a k' true true) o subs).1.st = o.st ∧
        ∀ k0 v0, o.cached k0 = some v0 →
          (subsLoop (fun o a k' => call sys n o a k' true true) o subs).1.cached k0 = some v0 := by
      intro subs
      induction subs with
      | nil => intro o; exact ⟨rfl, rfl, fun _ _ h => h⟩
      | cons p subs ihs =>
        intro o
        obtain ⟨a, k⟩ := p
        have h1 := ih o a k true true
        unfold subsLoop
        cases hr : call sys n o a k true true with
        | mk o1 r =>
          rw [hr] at h1
          cases r with
          | fuel => exact h1
          | valueError => exact h1
          | ok v =>
            have h2 := ihs o1
            simp only
            cases hr2 : subsLoop (fun o a k' => call sys n o a k' true true) o1 subs with
            | mk o2 r2 =>
              rw [hr2] at h2
              cases r2 with
              | inl _ => exact ⟨h2.1.trans h1.1, h2.2.1.trans h1.2.1,
                  fun k0 v0 h => h2.2.2 _ _ (h1.2.2 _ _ h)⟩
              | inr _ => exact ⟨h2.1.trans h1.1, h2.2.1.trans h1.2.1,
                  fun k0 v0 h => h2.2.2 _ _ (h1.2.2 _ _ h)⟩
    intro o a k save raise
    have hsave : ∀ (o1 : Obj St V) (v : V), o.cached k = none → o1.it = o.it ∧ o1.st = o.st ∧
        (∀ k0 v0, o.cached k0 = some v0 → o1.cached k0 = some v0) →
        (o1.save k v).it = o.it ∧ (o1.save k v).st = o.st ∧
        ∀ k0 v0, o.cached k0 = some v0 → (o1.save k v).cached k0 = some v0 := by
      intro o1 v hn ⟨h1, h2, h3⟩
      refine ⟨h1, h2, fun k0 v0 h => ?_⟩
      rw [cached_save]
      by_cases hk : k0 = k
      · subst hk; rw [hn] at h; cases h
      · simp [hk, h3 k0 v0 h]
    cases a with
    | getVar =>
      simp only [call]
      cases hs : sys.stored k with
      | some f => exact ⟨rfl, rfl, fun _ _ h => h⟩
      | none =>
        simp only
        cases hcv : o.cached k with
        | some v => exact ⟨rfl, rfl, fun _ _ h => h⟩
        | none =>
          have h1 := ih o .compute k true true
          cases hr : call sys n o .compute k true true with
          | mk o1 r =>
            rw [hr] at h1
            cases r with
            | fuel => exact h1
            | valueError => exact h1
            | ok v => exact hsave o1 v hcv h1
    | compute =>
      simp only [call]
      cases hcv : o.cached k with
      | some v => exact ⟨rfl, rfl, fun _ _ h => h⟩
      | none =>
        simp only
        cases hf : sys.formula k with
        | none =>
          cases raise with
          | true => exact ⟨rfl, rfl, fun _ _ h => h⟩
          | false =>
            cases save with
            | false => exact ⟨rfl, rfl, fun _ _ h => h⟩
            | true => exact hsave o sys.zeros hcv ⟨rfl, rfl, fun _ _ h => h⟩
        | some p =>
          obtain ⟨subs, f⟩ := p
          simp only
          have h1 := hsubs subs o
          cases hr : subsLoop (fun o a k' => call sys n o a k' true true) o subs with
          | mk o1 r =>
            rw [hr] at h1
            cases r with
            | inl _ => exact h1
            | inr vs =>
              cases save with
              | false => exact h1
              | true => exact hsave o1 _ hcv h1

/-- After a successful read of a non-stored variable (with storage), it is in the cache. -/
theorem call_caches (sys : Sys St V) (n : Nat) (o : Obj St V) (a : Access) (k : String)
    (raise : Bool) (hst : a = .getVar → sys.stored k = none) (v : V)
    (h : (call sys n o a k true raise).2 = .ok v) :
    (call sys n o a k true raise).1.cached k = some v := by
  cases n with
  | zero => simp [call] at h
  | succ n =>
    cases a with
    | getVar =>
      simp only [call, hst rfl] at h ⊢
      cases hcv : o.cached k with
      | some v' => simp only [hcv, Res.ok.injEq] at h ⊢; rw [← h]
      | none =>
        simp only [hcv] at h ⊢
        cases hr : call sys n o .compute k true true with
        | mk o1 r =>
          rw [hr] at h
          cases r with
          | fuel => simp at h
          | valueError => simp at h
          | ok v' =>
            simp only [Res.ok.injEq] at h
            subst h
            simp [cached_save]
    | compute =>
      simp only [call] at h ⊢
      cases hcv : o.cached k with
      | some v' => simp only [hcv, Res.ok.injEq] at h ⊢; rw [← h]
      | none =>
        simp only [hcv] at h ⊢
        cases hf : sys.formula k with
        | none =>
          cases raise with
          | true => simp [hf] at h
          | false =>
            simp only [hf, Bool.false_eq_true, if_false, Res.ok.injEq] at h ⊢
            subst h
            simp [cached_save]
        | some p =>
          obtain ⟨subs, f⟩ := p
          simp only [hf] at h ⊢
          cases hr : subsLoop (fun o a k' => call sys n o a k' true true) o subs with
          | mk o1 r =>
            rw [hr] at h
            cases r with
            | inl r =>
              simp only at h
              exfalso
              -- a sub-call that stops the loop never is a value
              have : ∀ (subs : List (Access × String)) (o o1 : Obj St V) (w : V),
                  subsLoop (fun o a k' => call sys n o a k' true true) o subs ≠ (o1, .inl (.ok w)) := by
                intro subs
                induction subs with
                | nil => intro o o1 w hh; simp [subsLoop] at hh
                | cons p subs ihs =>
                  intro o o1 w hh
                  obtain ⟨a, k⟩ := p
                  unfold subsLoop at hh
                  cases hr : call sys n o a k true true with
                  | mk o2 r2 =>
                    simp only [hr] at hh
                    cases r2 with
                    | fuel => simp at hh
                    | valueError => simp at hh
                    | ok v =>
                      simp only at hh
                      cases hr3 : subsLoop (fun o a k' => call sys n o a k' true true) o2 subs with
                      | mk o3 r3 =>
                        simp only [hr3] at hh
                        cases r3 with
                        | inr _ => simp at hh
                        | inl r4 =>
                          simp only [Prod.mk.injEq, Sum.inl.injEq] at hh
                          obtain ⟨rfl, rfl⟩ := hh
                          exact ihs _ _ _ hr3
              subst h
              exact this subs o o1 v hr
            | inr vs =>
              simp only [Res.ok.injEq] at h
              subst h
              simp [cached_save]

end Verif.VarCache
