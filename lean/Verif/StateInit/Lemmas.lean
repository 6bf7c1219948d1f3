import Verif.StateInit.Spec

namespace Verif.StateInit

variable {V : Type}

theorem set_same (f : String → V) (k : String) (v : V) : set f k v k = v := by simp [set]
theorem set_other (f : String → V) {k k' : String} (v : V) (h : k' ≠ k) :
    set f k v k' = f k' := by simp [set, h]

theorem spectLoop_none (keys : List String) (s : Fields V) (kw : Kw V) :
    (spectLoop keys s kw).2 = none ↔ ∀ p ∈ kw, p.1 ∈ keys := by
  induction kw generalizing s with
  | nil => simp [spectLoop]
  | cons p kw ih =>
    obtain ⟨k, v⟩ := p
    by_cases hk : k ∈ keys
    · simp [spectLoop, hk, ih]
    · simp [spectLoop, hk]

theorem spectLoop_not_mem (keys : List String) (s : Fields V) (kw : Kw V) (k : String)
    (hk : ∀ p ∈ kw, p.1 ≠ k) : (spectLoop keys s kw).1.spect k = s.spect k := by
  induction kw generalizing s with
  | nil => simp [spectLoop]
  | cons p kw ih =>
    obtain ⟨k', v⟩ := p
    by_cases hm : k' ∈ keys
    · simp only [spectLoop, hm, not_true, if_false]
      rw [ih _ (fun p hp => hk p (by simp [hp]))]
      have : k ≠ k' := fun h => hk (k', v) (by simp) h.symm
      simp [Fields.setSpect, set, this]
    · simp [spectLoop, hm]

theorem spectLoop_mem (keys : List String) (s : Fields V) (kw : Kw V)
    (hn : (kw.map (·.1)).Nodup) (hall : ∀ p ∈ kw, p.1 ∈ keys) (k : String) (v : V)
    (hk : (k, v) ∈ kw) : (spectLoop keys s kw).1.spect k = v := by
  induction kw generalizing s with
  | nil => cases hk
  | cons p kw ih =>
    obtain ⟨k', v'⟩ := p
    have hm : k' ∈ keys := hall (k', v') (by simp)
    simp only [spectLoop, hm, not_true, if_false]
    simp only [List.map_cons, List.nodup_cons] at hn
    rcases List.mem_cons.1 hk with h | h
    · cases h
      rw [spectLoop_not_mem]
      · simp [Fields.setSpect, set]
      · intro p hp he
        exact hn.1 (List.mem_map.2 ⟨p, hp, he⟩)
    · exact ih _ hn.2 (fun p hp => hall p (by simp [hp])) h

theorem spectLoop_phys (keys : List String) (s : Fields V) (kw : Kw V) :
    (spectLoop keys s kw).1.phys = s.phys := by
  induction kw generalizing s with
  | nil => rfl
  | cons p kw ih =>
    obtain ⟨k, v⟩ := p
    by_cases hm : k ∈ keys
    · simp only [spectLoop, hm, not_true, if_false]; rw [ih]; rfl
    · simp [spectLoop, hm]

theorem physLoop_none (keys : List String) (s : Fields V) (kw : Kw V) :
    (physLoop keys s kw).2 = none ↔ ∀ p ∈ kw, p.1 ∈ keys := by
  induction kw generalizing s with
  | nil => simp [physLoop]
  | cons p kw ih =>
    obtain ⟨k, v⟩ := p
    by_cases hk : k ∈ keys
    · simp [physLoop, hk, ih]
    · simp [physLoop, hk]

theorem physLoop_not_mem (keys : List String) (s : Fields V) (kw : Kw V) (k : String)
    (hk : ∀ p ∈ kw, p.1 ≠ k) : (physLoop keys s kw).1.phys k = s.phys k := by
  induction kw generalizing s with
  | nil => simp [physLoop]
  | cons p kw ih =>
    obtain ⟨k', v⟩ := p
    by_cases hm : k' ∈ keys
    · simp only [physLoop, hm, not_true, if_false]
      rw [ih _ (fun p hp => hk p (by simp [hp]))]
      have : k ≠ k' := fun h => hk (k', v) (by simp) h.symm
      simp [Fields.setPhys, set, this]
    · simp [physLoop, hm]

theorem physLoop_mem (keys : List String) (s : Fields V) (kw : Kw V)
    (hn : (kw.map (·.1)).Nodup) (hall : ∀ p ∈ kw, p.1 ∈ keys) (k : String) (v : V)
    (hk : (k, v) ∈ kw) : (physLoop keys s kw).1.phys k = v := by
  induction kw generalizing s with
  | nil => cases hk
  | cons p kw ih =>
    obtain ⟨k', v'⟩ := p
    have hm : k' ∈ keys := hall (k', v') (by simp)
    simp only [physLoop, hm, not_true, if_false]
    simp only [List.map_cons, List.nodup_cons] at hn
    rcases List.mem_cons.1 hk with h | h
    · cases h
      rw [physLoop_not_mem]
      · simp [Fields.setPhys, set]
      · intro p hp he
        exact hn.1 (List.mem_map.2 ⟨p, hp, he⟩)
    · exact ih _ hn.2 (fun p hp => hall p (by simp [hp])) h

theorem find_of_mem {kw : Kw V} (hn : (kw.map (·.1)).Nodup) {k : String} {v : V}
    (hk : (k, v) ∈ kw) : kw.find? (fun p => p.1 = k) = some (k, v) := by
  induction kw with
  | nil => cases hk
  | cons p kw ih =>
    simp only [List.map_cons, List.nodup_cons] at hn
    rcases List.mem_cons.1 hk with h | h
    · subst h; simp
    · have : p.1 ≠ k := by
        intro he
        exact hn.1 (List.mem_map.2 ⟨(k, v), h, he.symm⟩)
      simp [this]
      exact ih hn.2 h

theorem find_of_not_mem {kw : Kw V} {k : String} (hk : ∀ p ∈ kw, p.1 ≠ k) :
    kw.find? (fun p => p.1 = k) = none := by
  simp only [List.find?_eq_none, decide_eq_true_eq]
  exact hk

theorem symKw_nodup {keys : List String} (h : keys.Nodup) :
    ((symKw keys).map (·.1)).Nodup := by
  simpa [symKw, Function.comp_def] using h

/-- the base method keeps every field -/
theorem base_keeps (keysState : List String) :
    KeepsAll keysState (baseInitSpect symOps keysState) := by
  intro s keys hn hok k hk
  have hall := (spectLoop_none _ _ _).1 hok
  have hmem : (k, Term.var k) ∈ symKw keys := List.mem_map.2 ⟨k, hk, rfl⟩
  refine ⟨k, hall _ hmem, ?_⟩
  unfold baseInitSpect
  rw [spectLoop_mem _ _ _ (symKw_nodup hn) hall k _ hmem]
  simp [Term.mentions]

theorem lookup_sym {keys : List String} {k : String} {t : Term}
    (h : lookup (symKw keys) k = some t) : k ∈ keys ∧ t = .var k := by
  unfold lookup at h
  rw [Option.map_eq_some_iff] at h
  obtain ⟨p, hp, rfl⟩ := h
  have h1 := List.find?_some hp
  have h2 := List.mem_of_find?_eq_some hp
  simp only [decide_eq_true_eq] at h1
  obtain ⟨k', hk', rfl⟩ := List.mem_map.1 h2
  simp only at h1
  subst h1
  exact ⟨hk', rfl⟩

theorem lookup_sym_none {keys : List String} {k : String}
    (h : lookup (symKw keys) k = none) : k ∉ keys := by
  intro hk
  unfold lookup at h
  rw [Option.map_eq_none_iff, List.find?_eq_none] at h
  exact h (k, .var k) (List.mem_map.2 ⟨k, hk, rfl⟩) (by simp)

/-- a list of two distinct elements -/
theorem mem_of_two {keys : List String} (h2 : keys.length = 2) {a b : String} (hab : a ≠ b)
    (ha : a ∈ keys) (hb : b ∈ keys) {k : String} (hk : k ∈ keys) : k = a ∨ k = b := by
  match keys, h2 with
  | [x, y], _ =>
    simp only [List.mem_cons, List.not_mem_nil, or_false] at ha hb hk
    rcases ha with rfl | rfl <;> rcases hb with rfl | rfl <;> rcases hk with rfl | rfl <;>
      first | exact absurd rfl hab | simp

end Verif.StateInit
