import Verif.Restart.Spec
import Verif.PhysFiles.Lemmas

set_option linter.unusedSectionVars false

namespace Verif.Restart

open PhysFiles (Str digitsVal isDig isDig_bounds)

theorem field_ne_colon {h : Str} (hh : ∀ c ∈ h, isDig c = true) : ':' ∉ h := by
  intro hmem
  have := hh ':' hmem
  revert this; decide

theorem digitsVal_one {c : Char} (h : isDig c = true) : digitsVal [c] ≤ 9 := by
  have := isDig_bounds h
  simp [digitsVal]; omega

theorem mem_cands (lim : ℕ) (s : Str) (v : ℕ) (r : Str) (hl : 9 ≤ lim) :
    (v, r) ∈ cands lim s ↔ ∃ d, IsField d ∧ s = d ++ r ∧ v = digitsVal d ∧ v ≤ lim := by
  constructor
  · intro h
    simp only [cands, List.mem_append] at h
    rcases h with h | h
    · split at h
      · rename_i c d r'
        split_ifs at h with hc
        swap
        · simp at h
        simp only [Bool.and_eq_true, decide_eq_true_eq] at hc
        simp only [List.mem_singleton, Prod.mk.injEq] at h
        obtain ⟨rfl, rfl⟩ := h
        refine ⟨[c, d], ⟨by simp, ?_⟩, rfl, rfl, hc.2⟩
        simp only [List.mem_cons, List.not_mem_nil, or_false]
        rintro x (rfl | rfl)
        · exact hc.1.1
        · exact hc.1.2
      · simp at h
    · split at h
      · rename_i c r'
        split_ifs at h with hc
        swap
        · simp at h
        simp only [List.mem_singleton, Prod.mk.injEq] at h
        obtain ⟨rfl, rfl⟩ := h
        exact ⟨[c], ⟨by simp, by simpa using hc⟩, rfl, rfl, (digitsVal_one hc).trans hl⟩
      · simp at h
  · rintro ⟨d, ⟨hlen, hd⟩, rfl, rfl, hv⟩
    rcases hlen with hlen | hlen
    · obtain ⟨c, rfl⟩ := List.length_eq_one_iff.1 hlen
      have hc := hd c (by simp)
      simp [cands, hc]
    · obtain ⟨c, e, rfl⟩ := List.length_eq_two.1 hlen
      have hc := hd c (by simp)
      have he := hd e (by simp)
      simp [cands, hc, he, hv]

theorem colon_eq (s r : Str) : colon s = some r ↔ s = ':' :: r := by
  unfold colon
  split
  · simp
  · rename_i h
    constructor
    · simp
    · intro hs; exact absurd hs (h r)

/-- A text is cut in only one way at its first colon. -/
theorem cut_unique {a b r r' : Str} (ha : ∀ c ∈ a, isDig c = true) (hb : ∀ c ∈ b, isDig c = true)
    (h : a ++ ':' :: r = b ++ ':' :: r') : a = b ∧ r = r' := by
  have h1 := PhysFiles.takeWhile_append_stop a ha ':' (by decide) r
  have h2 := PhysFiles.takeWhile_append_stop b hb ':' (by decide) r'
  have hab : a = b := by rw [← h1, h, h2]
  subst hab
  have := List.append_cancel_left h
  simp only [List.cons.injEq, true_and] at this
  exact ⟨rfl, this⟩

theorem parseSec_iff (s : Str) (n : ℕ) :
    parseSec s = some n ↔ IsField s ∧ digitsVal s < 60 ∧ n = digitsVal s := by
  unfold parseSec
  constructor
  · intro h
    split at h
    · rename_i v hv
      split_ifs at h with hle
      obtain rfl : v = n := Option.some.inj h
      have hm : (v, ([] : Str)) ∈ cands 61 s := List.mem_of_mem_head? hv
      obtain ⟨d, hd, hs, hvd, _⟩ := (mem_cands 61 s v [] (by norm_num)).1 hm
      rw [List.append_nil] at hs
      subst hs
      exact ⟨hd, by omega, hvd⟩
    · simp at h
  · rintro ⟨⟨hlen, hd⟩, hlt, rfl⟩
    rcases hlen with hlen | hlen
    · obtain ⟨c, rfl⟩ := List.length_eq_one_iff.1 hlen
      have hc := hd c (by simp)
      have hle : digitsVal [c] ≤ 59 := by omega
      have : cands 61 [c] = [(digitsVal [c], [])] := by simp [cands, hc]
      simp [this, hle]
    · obtain ⟨c, e, rfl⟩ := List.length_eq_two.1 hlen
      have hc := hd c (by simp)
      have he := hd e (by simp)
      have hle : digitsVal [c, e] ≤ 59 := by omega
      have h61 : digitsVal [c, e] ≤ 61 := by omega
      have : (cands 61 [c, e]).head? = some (digitsVal [c, e], []) := by simp [cands, hc, he, h61]
      simp [this, hle]

theorem findSome?_unique {A B : Type*} (l : List A) (f : A → Option B) (a : A) (b : B)
    (ha : a ∈ l) (hf : f a = some b) (hu : ∀ x ∈ l, ∀ y, f x = some y → y = b) :
    l.findSome? f = some b := by
  rcases Option.eq_none_or_eq_some (l.findSome? f) with hc | ⟨y, hc⟩
  · rw [List.findSome?_eq_none_iff] at hc
    rw [hc a ha] at hf; simp at hf
  · obtain ⟨x, hx, hy⟩ := List.exists_of_findSome?_eq_some hc
    rw [hc, hu x hx y hy]

theorem strptime_iff (s : Str) (n : ℕ) : strptime s = some n ↔ IsTimeText s n := by
  constructor
  · intro h
    simp only [strptime, Option.bind_eq_some_iff, Option.map_eq_some_iff] at h
    obtain ⟨⟨vh, vm, r2⟩, h1, sec, h2, h3⟩ := h
    obtain ⟨⟨vh', rh⟩, hmem, h4⟩ := List.exists_of_findSome?_eq_some h1
    simp only [Option.bind_eq_some_iff] at h4
    obtain ⟨r1, hr1, h5⟩ := h4
    obtain ⟨⟨vm', rm⟩, hmem2, h6⟩ := List.exists_of_findSome?_eq_some h5
    simp only [Option.bind_eq_some_iff] at h6
    obtain ⟨r2', hr2, h7⟩ := h6
    split_ifs at h7
    · simp only [Option.some.injEq, Prod.mk.injEq] at h7
      obtain ⟨rfl, rfl, rfl⟩ := h7
      obtain ⟨dh, hdh, rfl, rfl, hlh⟩ := (mem_cands 23 s _ _ (by norm_num)).1 hmem
      rw [colon_eq] at hr1 hr2
      subst hr1
      obtain ⟨dm, hdm, rfl, rfl, hlm⟩ := (mem_cands 59 _ _ _ (by norm_num)).1 hmem2
      subst hr2
      obtain ⟨hds, hls, rfl⟩ := (parseSec_iff _ _).1 h2
      exact ⟨dh, dm, _, hdh, hdm, hds, by omega, by omega, hls,
        rfl, h3.symm⟩
  · rintro ⟨h, m, sec, hh, hm, hs, lh, lm, ls, rfl, rfl⟩
    have hcs : ∃ x l, cands 61 sec = x :: l := by
      have : (digitsVal sec, ([] : Str)) ∈ cands 61 sec :=
        (mem_cands 61 sec _ _ (by norm_num)).2 ⟨sec, hs, by simp, rfl, by omega⟩
      exact List.exists_cons_of_ne_nil (List.ne_nil_of_mem this)
    obtain ⟨x0, l0, hx0⟩ := hcs
    have inner : (cands 59 (m ++ ':' :: sec)).findSome? (fun mr => (colon mr.2).bind fun r2 =>
        if (cands 61 r2).isEmpty then none else some (digitsVal h, mr.1, r2)) = some (digitsVal h, digitsVal m, sec) := by
      refine findSome?_unique _ _ (digitsVal m, ':' :: sec) _
        ((mem_cands 59 _ _ _ (by norm_num)).2 ⟨m, hm, rfl, rfl, by omega⟩) ?_ ?_
      · simp [colon, hx0]
      · rintro ⟨v, r⟩ hx y hy
        obtain ⟨d, hd, hdr, rfl, _⟩ := (mem_cands 59 _ _ _ (by norm_num)).1 hx
        simp only [Option.bind_eq_some_iff] at hy
        obtain ⟨r2, hr2, hy⟩ := hy
        rw [colon_eq] at hr2
        subst hr2
        obtain ⟨rfl, rfl⟩ := cut_unique hm.2 hd.2 hdr
        simp only [hx0, List.isEmpty_cons, Bool.false_eq_true, if_false, Option.some.injEq] at hy
        exact hy.symm
    have outer : (cands 23 (h ++ ':' :: (m ++ ':' :: sec))).findSome? (fun hr =>
        (colon hr.2).bind fun r1 =>
        (cands 59 r1).findSome? fun mr => (colon mr.2).bind fun r2 =>
        if (cands 61 r2).isEmpty then none else some (hr.1, mr.1, r2)) = some (digitsVal h, digitsVal m, sec) := by
      refine findSome?_unique _ _ (digitsVal h, ':' :: (m ++ ':' :: sec)) _
        ((mem_cands 23 _ _ _ (by norm_num)).2 ⟨h, hh, rfl, rfl, by omega⟩) ?_ ?_
      · simp only [colon, Option.bind_some]; exact inner
      · rintro ⟨v, r⟩ hx y hy
        obtain ⟨d, hd, hdr, rfl, _⟩ := (mem_cands 23 _ _ _ (by norm_num)).1 hx
        simp only [Option.bind_eq_some_iff] at hy
        obtain ⟨r1, hr1, hy⟩ := hy
        rw [colon_eq] at hr1
        subst hr1
        obtain ⟨rfl, rfl⟩ := cut_unique hh.2 hd.2 hdr
        rw [inner] at hy
        exact (Option.some.inj hy).symm
    simp only [strptime, outer, Option.bind_some, (parseSec_iff sec _).2 ⟨hs, ls, rfl⟩,
      Option.map_some]

/-! ### C50 -/

variable {K : Type*} [Field K] [LinearOrder K]

theorem openPatient_spec {F : Type*} (att : ℕ → Attempt F) (elapsed : ℕ → K) (total : K)
    (fuel k : ℕ) (r : Opened F) (h : openPatient att elapsed total fuel k = some r) :
    ∃ j, k ≤ j ∧ j < k + fuel ∧
      (∀ i, k ≤ i → i < j → att i = .errno 11 ∧ elapsed i ≤ total) ∧
      ((∃ f, att j = .ok f ∧ r = .file f) ∨ (att j = .noErrno ∧ r = .indexError) ∨
        ∃ n, att j = .errno n ∧ (n ≠ 11 ∨ total < elapsed j) ∧ r = .osError n) := by
  induction fuel generalizing k with
  | zero => simp [openPatient] at h
  | succ fuel ih =>
    simp only [openPatient] at h
    rcases hk : att k with f | n | _
    · simp only [hk, Option.some.injEq] at h
      exact ⟨k, le_rfl, by omega, fun i h1 h2 => by omega, Or.inl ⟨f, hk, h.symm⟩⟩
    · simp only [hk] at h
      split_ifs at h with hc
      · simp only [Option.some.injEq] at h
        exact ⟨k, le_rfl, by omega, fun i h1 h2 => by omega, Or.inr (Or.inr ⟨n, hk, hc, h.symm⟩)⟩
      · push Not at hc
        obtain ⟨j, h1, h2, h3, h4⟩ := ih (k + 1) h
        refine ⟨j, by omega, by omega, fun i hi hij => ?_, h4⟩
        rcases Nat.eq_or_lt_of_le hi with rfl | hlt
        · exact ⟨by rw [hk, hc.1], hc.2⟩
        · exact h3 i hlt hij
    · simp only [hk, Option.some.injEq] at h
      exact ⟨k, le_rfl, by omega, fun i h1 h2 => by omega, Or.inr (Or.inl ⟨hk, h.symm⟩)⟩

theorem openPatient_none {F : Type*} (att : ℕ → Attempt F) (elapsed : ℕ → K) (total : K)
    (fuel k : ℕ) (h : openPatient att elapsed total fuel k = none) :
    ∀ i, k ≤ i → i < k + fuel → att i = .errno 11 ∧ elapsed i ≤ total := by
  induction fuel generalizing k with
  | zero => intro i h1 h2; omega
  | succ fuel ih =>
    simp only [openPatient] at h
    rcases hk : att k with f | n | _
    · simp [hk] at h
    · simp only [hk] at h
      split_ifs at h with hc
      push Not at hc
      intro i h1 h2
      rcases Nat.eq_or_lt_of_le h1 with rfl | hlt
      · exact ⟨by rw [hk, hc.1], hc.2⟩
      · exact ih (k + 1) h i hlt (by omega)
    · simp [hk] at h

theorem openPatient_of {F : Type*} (att : ℕ → Attempt F) (elapsed : ℕ → K) (total : K)
    (fuel k j : ℕ) (hj : k ≤ j) (hf : j < k + fuel)
    (h : ∀ i, k ≤ i → i < j → att i = .errno 11 ∧ elapsed i ≤ total) :
    openPatient att elapsed total fuel k = openPatient att elapsed total (fuel - (j - k)) j := by
  induction fuel generalizing k with
  | zero => omega
  | succ fuel ih =>
    rcases Nat.eq_or_lt_of_le hj with rfl | hlt
    · simp
    · obtain ⟨h1, h2⟩ := h k le_rfl hlt
      have : openPatient att elapsed total (fuel + 1) k = openPatient att elapsed total fuel (k + 1) := by
        simp [openPatient, h1, not_lt.2 h2]
      rw [this, ih (k + 1) hlt (by omega) fun i hi hij => h i (by omega) hij]
      congr 1
      omega

end Verif.Restart
