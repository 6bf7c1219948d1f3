import Verif.Series.Spec
import Mathlib.Data.List.Nodup
import Mathlib.Tactic.Common
import Mathlib.Algebra.Order.Group.Nat

set_option linter.unusedSectionVars false

namespace Verif.Series

variable {T V : Type*} [Inhabited T] [Inhabited V]

theorem length_resize {A : Type*} [Inhabited A] (l : List A) (n : ℕ) :
    (resize l n).length = n := by
  simp [resize]; omega

theorem getElem?_resize {A : Type*} [Inhabited A] (l : List A) (n i : ℕ) (hi : i < l.length)
    (hn : l.length ≤ n) : (resize l n)[i]? = l[i]? := by
  simp only [resize]
  rw [List.take_of_length_le hn, List.getElem?_append_left hi]

theorem getElem?_resize_of_some {A : Type*} [Inhabited A] {l : List A} {n i : ℕ} {v : A}
    (h : l[i]? = some v) (hi : i < n) : (resize l n)[i]? = some v := by
  have hl : i < l.length := by
    by_contra hc
    rw [List.getElem?_eq_none (not_lt.1 hc)] at h
    cases h
  simp only [resize]
  rw [List.getElem?_append_left (by simp; omega), List.getElem?_take_of_lt hi, h]

theorem resize_set_succ {A : Type*} [Inhabited A] (l : List A) (v : A) :
    (resize l (l.length + 1)).set l.length v = l ++ [v] := by
  simp [resize, List.take_of_length_le]

theorem getElem?_resize_set {A : Type*} [Inhabited A] (l : List A) (n : ℕ) (v : A) :
    ((resize l (n + 1)).set n v)[n]? = some v := by
  rw [List.getElem?_set_self]
  rw [length_resize]; omega

theorem get_updKey (f : File T V) (k k' : Key) (g : List V → List V) :
    File.get (⟨f.times, updKey f.dsets k g⟩ : File T V) k' =
      if k' = k then (f.get k').map g else f.get k' := by
  obtain ⟨times, ds⟩ := f
  simp only [File.get, updKey]
  induction ds with
  | nil => simp
  | cons e ds ih =>
    simp only [List.map_cons, List.find?_cons]
    by_cases hk : e.1 = k
    · by_cases hk' : e.1 = k'
      · have : k' = k := hk' ▸ hk
        simp [hk, this]
      · have : ¬ k' = k := fun h => hk' (by rw [hk, h])
        simp only [this, if_false, hk, if_true] at ih ⊢
        have hkk : ¬ k = k' := fun h => this h.symm
        simp only [hkk, decide_false]
        exact ih
    · by_cases hk' : e.1 = k'
      · have : ¬ k' = k := fun h => hk (by rw [hk', h])
        simp [hk', this]
      · simp only [hk, if_false, hk', decide_false] at ih ⊢
        exact ih

theorem get_applyOp_resizeKey (f : File T V) (k k' : Key) (n : ℕ) :
    (applyOp f (.resizeKey k n)).get k' =
      if k' = k then (f.get k').map (fun l => resize l n) else f.get k' :=
  get_updKey f k k' _

theorem get_applyOp_setKey (f : File T V) (k k' : Key) (i : ℕ) (v : V) :
    (applyOp f (.setKey k i v)).get k' =
      if k' = k then (f.get k').map (fun l => l.set i v) else f.get k' :=
  get_updKey f k k' _

/-- The operations of one key. -/
def keyOps (n : ℕ) (d : Dict V) : List (Op T V) :=
  d.flatMap fun e => [.resizeKey e.1 (n + 1), .setKey e.1 n e.2]

theorem foldl_keyOps_times (n : ℕ) (d : Dict V) (f : File T V) :
    ((keyOps n d).foldl applyOp f).times = f.times := by
  induction d generalizing f with
  | nil => rfl
  | cons e d ih =>
    simp only [keyOps, List.flatMap_cons, List.foldl_append, List.foldl_cons, List.foldl_nil] at ih ⊢
    rw [ih]
    rfl

theorem foldl_keyOps_get (n : ℕ) (d : Dict V) (hd : (d.map Prod.fst).Nodup) (f : File T V)
    (k : Key) :
    ((keyOps n d).foldl applyOp f).get k =
      match dictVal d k with
      | some v => (f.get k).map (fun l => (resize l (n + 1)).set n v)
      | none => f.get k := by
  induction d generalizing f with
  | nil => simp [keyOps, dictVal]
  | cons e d ih =>
    obtain ⟨hnot, hnd⟩ := List.nodup_cons.1 hd
    have ih' := ih hnd (applyOp (applyOp f (.resizeKey e.1 (n + 1))) (.setKey e.1 n e.2))
    simp only [keyOps, List.flatMap_cons, List.foldl_append, List.foldl_cons,
      List.foldl_nil] at ih' ⊢
    rw [ih']
    by_cases hk : e.1 = k
    · subst hk
      have hnone : dictVal d e.1 = none := by
        simp only [dictVal, Option.map_eq_none_iff, List.find?_eq_none, decide_eq_true_eq]
        intro x hx he
        exact hnot (he ▸ List.mem_map_of_mem hx)
      have hsome : dictVal (e :: d) e.1 = some e.2 := by simp [dictVal]
      simp only [hnone, hsome, get_applyOp_setKey, get_applyOp_resizeKey, if_true,
        Option.map_map, Function.comp_def]
    · have hs : dictVal (e :: d) k = dictVal d k := by simp [dictVal, hk]
      have hk' : ¬ k = e.1 := fun h => hk h.symm
      simp only [hs, get_applyOp_setKey, get_applyOp_resizeKey, hk', if_false]

theorem appendOps_eq (n : ℕ) (t : T) (d : Dict V) :
    appendOps n t d = .resizeTimes (n + 1) :: .setTime n t :: keyOps n d := rfl

theorem appendFull_eq (n : ℕ) (f : File T V) (t : T) (d : Dict V) :
    appendUpTo (appendOps n t d).length n f t d =
      (keyOps n d).foldl applyOp (⟨(resize f.times (n + 1)).set n t, f.dsets⟩ : File T V) := by
  unfold appendUpTo
  rw [List.take_of_length_le le_rfl, appendOps_eq]
  rfl

theorem appendFull_times (f : File T V) (t : T) (d : Dict V) :
    (appendUpTo (appendOps f.times.length t d).length f.times.length f t d).times
      = f.times ++ [t] := by
  rw [appendFull_eq, foldl_keyOps_times, resize_set_succ]

theorem appendFull_get (n : ℕ) (f : File T V) (t : T) (d : Dict V)
    (hd : (d.map Prod.fst).Nodup) (k : Key) :
    (appendUpTo (appendOps n t d).length n f t d).get k =
      match dictVal d k with
      | some v => (f.get k).map (fun l => (resize l (n + 1)).set n v)
      | none => f.get k := by
  rw [appendFull_eq, foldl_keyOps_get n d hd]
  rfl

theorem hasKey_iff (f : File T V) (k : Key) : hasKey f k = true ↔ (f.get k).isSome = true := by
  simp [hasKey, File.get, List.find?_isSome]

theorem dictVal_isSome (d : Dict V) (k : Key) (hk : k ∈ d.map Prod.fst) :
    ∃ v, dictVal d k = some v := by
  obtain ⟨e, he, rfl⟩ := List.mem_map.1 hk
  have : (d.find? fun x => x.1 = e.1).isSome = true := by
    rw [List.find?_isSome]; exact ⟨e, he, by simp⟩
  obtain ⟨x, hx⟩ := Option.isSome_iff_exists.1 this
  exact ⟨x.2, by simp [dictVal, hx]⟩

theorem createFile_get (t : T) (d : Dict V) (k : Key) :
    (createFile t d).get k = (dictVal d k).map fun v => [v] := by
  simp only [createFile, File.get, dictVal]
  induction d with
  | nil => rfl
  | cons e d ih =>
    simp only [List.map_cons, List.find?_cons]
    by_cases hk : e.1 = k
    · simp [hk]
    · simp only [hk, decide_false]; exact ih

theorem addDict_ok (f : File T V) (t : T) (d : Dict V)
    (h : ∀ k ∈ d.map Prod.fst, ∃ l, f.get k = some l) :
    addDict (some f) t d =
      (some (appendUpTo (appendOps f.times.length t d).length f.times.length f t d), none) := by
  have : (d.all fun e => hasKey f e.1) = true := by
    rw [List.all_eq_true]
    intro e he
    rw [hasKey_iff]
    obtain ⟨l, hl⟩ := h e.1 (List.mem_map_of_mem he)
    simp [hl]
  simp [addDict, this]

/-! ### crash-free histories -/

theorem holds_append (keys : List Key) (hk : keys.Nodup) (f : File T V)
    (recs : List (T × Dict V)) (hf : Holds keys f recs) (t : T) (d : Dict V)
    (hd : d.map Prod.fst = keys) :
    Holds keys (appendUpTo (appendOps f.times.length t d).length f.times.length f t d)
      (recs ++ [(t, d)]) := by
  refine ⟨?_, fun k hkk => ?_⟩
  · rw [appendFull_times, hf.1]; simp
  · obtain ⟨l, hl1, hl2⟩ := hf.2 k hkk
    obtain ⟨v, hv⟩ := dictVal_isSome d k (by rw [hd]; exact hkk)
    have hlen : l.length = f.times.length := by
      have := congrArg List.length hl2
      simp only [List.length_map] at this
      rw [this, hf.1, List.length_map]
    refine ⟨l ++ [v], ?_, ?_⟩
    · rw [appendFull_get _ _ _ _ (by rw [hd]; exact hk), hv]
      simp only [hl1, Option.map_some]
      rw [← hlen, resize_set_succ]
    · simp [hl2, hv]

theorem holds_create (keys : List Key) (t : T) (d : Dict V) (hd : d.map Prod.fst = keys) :
    Holds keys (createFile t d) [(t, d)] := by
  refine ⟨rfl, fun k hk => ?_⟩
  obtain ⟨v, hv⟩ := dictVal_isSome d k (by rw [hd]; exact hk)
  exact ⟨[v], by rw [createFile_get, hv]; rfl, by simp [hv]⟩

theorem run_holds_from (keys : List Key) (h : List (Ev T V)) (hs : SameKeys keys h)
    (hn : NoCrash h) (f : File T V) (recs : List (T × Dict V)) (hf : Holds keys f recs) :
    ∃ f', h.foldl step (some f) = some f' ∧ Holds keys f' (recs ++ completed h) := by
  induction h generalizing f recs with
  | nil => exact ⟨f, rfl, by simpa [completed] using hf⟩
  | cons e h ih =>
    have hs' : SameKeys keys h := ⟨hs.1, fun x hx => hs.2 x (by simp [hx])⟩
    have hn' : NoCrash h := fun x hx => hn x (by simp [hx])
    have he := hs.2 e (by simp)
    have key : ∀ t d, d.map Prod.fst = keys →
        addDict (some f) t d =
        (some (appendUpTo (appendOps f.times.length t d).length f.times.length f t d), none) :=
      fun t d hd => addDict_ok f t d fun k hk => by
        obtain ⟨l, hl, _⟩ := hf.2 k (hd ▸ hk)
        exact ⟨l, hl⟩
    cases e with
    | start t d =>
      obtain ⟨f', h1, h2⟩ := ih hs' hn' _ _ (holds_append keys hs.1 f recs hf t d he)
      refine ⟨f', ?_, by simpa [completed] using h2⟩
      simp only [List.foldl_cons, step, initFiles, key t d he]
      exact h1
    | save t d =>
      obtain ⟨f', h1, h2⟩ := ih hs' hn' _ _ (holds_append keys hs.1 f recs hf t d he)
      refine ⟨f', ?_, by simpa [completed] using h2⟩
      simp only [List.foldl_cons, step, key t d he]
      exact h1
    | crash m t d => exact absurd rfl (hn _ (by simp) m t d)

/-! ### crashes -/

/-- Invariant of a file with unfinished records. -/
def Inv (keys : List Key) (f : File T V) (slots : List (Option (T × Dict V))) : Prop :=
  f.times.length = slots.length ∧
  (∀ k ∈ keys, ∃ l, f.get k = some l ∧ l.length ≤ slots.length) ∧
  ∀ (i : ℕ) (t : T) (d : Dict V), slots[i]? = some (some (t, d)) → f.times[i]? = some t ∧
    ∀ k ∈ keys, ∃ l v, f.get k = some l ∧ l[i]? = some v ∧ dictVal d k = some v

/-- An operation that touches only record `n`. -/
def OnlyAt (n : ℕ) : Op T V → Prop
  | .resizeTimes m => m = n + 1
  | .setTime i _ => i = n
  | .resizeKey _ m => m = n + 1
  | .setKey _ i _ => i = n

theorem appendOps_onlyAt (n : ℕ) (t : T) (d : Dict V) :
    ∀ o ∈ (appendOps n t d : List (Op T V)), OnlyAt n o := by
  intro o ho
  simp only [appendOps, List.mem_cons, List.mem_flatMap, List.not_mem_nil, or_false] at ho
  rcases ho with rfl | rfl | ⟨e, _, rfl | rfl⟩ <;> simp [OnlyAt]

/-- What the operations on record `n` preserve. -/
def Keeps (keys : List Key) (n : ℕ) (f f' : File T V) : Prop :=
  (∀ i : ℕ, i < n → f'.times[i]? = f.times[i]?) ∧
  ∀ k ∈ keys, ∀ l, f.get k = some l → ∃ l', f'.get k = some l' ∧ l'.length ≤ n + 1 ∧
    ∀ (i : ℕ) (v : V), i < n → l[i]? = some v → l'[i]? = some v

theorem keeps_op (keys : List Key) (n : ℕ) (f f' : File T V) (hn : n ≤ f'.times.length)
    (h : Keeps keys n f f') (o : Op T V) (ho : OnlyAt n o) : Keeps keys n f (applyOp f' o) := by
  obtain ⟨h1, h2⟩ := h
  cases o with
  | resizeTimes m =>
    simp only [OnlyAt] at ho
    subst ho
    refine ⟨fun i hi => ?_, h2⟩
    rw [← h1 i hi]
    have hx : f'.times[i]? = some (f'.times[i]'(by omega)) := List.getElem?_eq_getElem _
    show (resize f'.times (n + 1))[i]? = _
    rw [hx]
    exact getElem?_resize_of_some hx (by omega)
  | setTime i t =>
    simp only [OnlyAt] at ho
    subst ho
    refine ⟨fun j hj => ?_, h2⟩
    rw [← h1 j hj]
    show (f'.times.set i t)[j]? = _
    rw [List.getElem?_set_ne (by omega)]
  | resizeKey k m =>
    simp only [OnlyAt] at ho
    subst ho
    refine ⟨h1, fun k' hk' l hl => ?_⟩
    obtain ⟨l', hl', hlen, hp⟩ := h2 k' hk' l hl
    rw [get_applyOp_resizeKey]
    by_cases hkk : k' = k
    · simp only [hkk, if_true]
      rw [← hkk, hl']
      refine ⟨resize l' (n + 1), rfl, (length_resize _ _).le, fun i v hi hv => ?_⟩
      exact getElem?_resize_of_some (hp i v hi hv) (by omega)
    · simp only [hkk, if_false]
      exact ⟨l', hl', hlen, hp⟩
  | setKey k i v =>
    simp only [OnlyAt] at ho
    subst ho
    refine ⟨h1, fun k' hk' l hl => ?_⟩
    obtain ⟨l', hl', hlen, hp⟩ := h2 k' hk' l hl
    rw [get_applyOp_setKey]
    by_cases hkk : k' = k
    · simp only [hkk, if_true]
      rw [← hkk, hl']
      refine ⟨l'.set i v, rfl, by simpa using hlen, fun j w hj hw => ?_⟩
      rw [List.getElem?_set_ne (by omega)]
      exact hp j w hj hw
    · simp only [hkk, if_false]
      exact ⟨l', hl', hlen, hp⟩

theorem times_len_op (n : ℕ) (f : File T V) (hn : n ≤ f.times.length) (o : Op T V)
    (ho : OnlyAt n o) : n ≤ (applyOp f o).times.length := by
  cases o with
  | resizeTimes m =>
    simp only [OnlyAt] at ho
    subst ho
    show n ≤ (resize f.times (n + 1)).length
    rw [length_resize]; omega
  | setTime i t => simpa [applyOp] using hn
  | resizeKey k m => exact hn
  | setKey k i v => exact hn

theorem keeps_fold (keys : List Key) (n : ℕ) (ops : List (Op T V)) (ho : ∀ o ∈ ops, OnlyAt n o)
    (f f' : File T V) (hn : n ≤ f'.times.length) (h : Keeps keys n f f') :
    Keeps keys n f (ops.foldl applyOp f') := by
  induction ops generalizing f' with
  | nil => exact h
  | cons o ops ih =>
    exact ih (fun x hx => ho x (by simp [hx])) _ (times_len_op n f' hn o (ho o (by simp)))
      (keeps_op keys n f f' hn h o (ho o (by simp)))

theorem times_len_rest (n : ℕ) (t : T) (d : Dict V) (m : ℕ) (f : File T V) :
    (((appendOps n t d).take (m + 1)).foldl applyOp f).times.length = n + 1 := by
  rw [appendOps_eq, List.take_succ_cons, List.foldl_cons]
  have h0 : (applyOp f (.resizeTimes (n + 1))).times.length = n + 1 := length_resize _ _
  generalize applyOp f (.resizeTimes (n + 1)) = g at h0 ⊢
  have : ∀ (ops : List (Op T V)), (∀ o ∈ ops, ∀ j, o ≠ Op.resizeTimes j) →
      ∀ g : File T V, g.times.length = n + 1 → (ops.foldl applyOp g).times.length = n + 1 := by
    intro ops
    induction ops with
    | nil => intro _ g hg; exact hg
    | cons o ops ih =>
      intro ho g hg
      refine ih (fun x hx => ho x (by simp [hx])) _ ?_
      cases o with
      | resizeTimes j => exact absurd rfl (ho _ (by simp) j)
      | setTime i t => simpa [applyOp] using hg
      | resizeKey k m => exact hg
      | setKey k i v => exact hg
  refine this _ (fun o ho j hj => ?_) g h0
  have := List.mem_of_mem_take ho
  subst hj
  simp [keyOps] at this

theorem inv_crash (keys : List Key) (f : File T V) (slots : List (Option (T × Dict V)))
    (hf : Inv keys f slots) (m : ℕ) (t : T) (d : Dict V) :
    ∃ more : List (Option (T × Dict V)), more.filterMap id = [] ∧
      Inv keys (appendUpTo m f.times.length f t d) (slots ++ more) := by
  obtain ⟨hlen, hks, hrec⟩ := hf
  cases m with
  | zero => exact ⟨[], rfl, by simpa [appendUpTo] using ⟨hlen, hks, hrec⟩⟩
  | succ m =>
    have hkeep : Keeps keys f.times.length f (appendUpTo (m + 1) f.times.length f t d) := by
      refine keeps_fold keys _ _ (fun o ho =>
        appendOps_onlyAt _ _ _ o (List.mem_of_mem_take ho)) f f le_rfl ⟨fun _ _ => rfl, ?_⟩
      intro k hk l hl
      obtain ⟨l', hl', hle⟩ := hks k hk
      rw [hl] at hl'
      cases hl'
      exact ⟨l, hl, by omega, fun i v _ hv => hv⟩
    refine ⟨[none], rfl, ?_, ?_, ?_⟩
    · rw [appendUpTo, times_len_rest, hlen]; simp
    · intro k hk
      obtain ⟨l, hl, _⟩ := hks k hk
      obtain ⟨l', hl', hle, _⟩ := hkeep.2 k hk l hl
      exact ⟨l', hl', by simp; omega⟩
    · intro i t' d' hi
      have hlt : i < slots.length := by
        by_contra hc
        rcases Nat.lt_or_ge slots.length i with h | h
        · rw [List.getElem?_eq_none (by simp; omega)] at hi; cases hi
        · have : i = slots.length := by omega
          subst this
          simp at hi
      rw [List.getElem?_append_left hlt] at hi
      obtain ⟨h1, h2⟩ := hrec i t' d' hi
      refine ⟨by rw [hkeep.1 i (by omega), h1], fun k hk => ?_⟩
      obtain ⟨l, v, hl, hv, hdv⟩ := h2 k hk
      obtain ⟨l', hl', _, hp⟩ := hkeep.2 k hk l hl
      exact ⟨l', v, hl', hp i v (by omega) hv, hdv⟩

theorem inv_append (keys : List Key) (hk : keys.Nodup) (f : File T V)
    (slots : List (Option (T × Dict V))) (hf : Inv keys f slots) (t : T) (d : Dict V)
    (hd : d.map Prod.fst = keys) :
    Inv keys (appendUpTo (appendOps f.times.length t d).length f.times.length f t d)
      (slots ++ [some (t, d)]) := by
  obtain ⟨hlen, hks, hrec⟩ := hf
  have hget := appendFull_get f.times.length f t d (by rw [hd]; exact hk)
  refine ⟨?_, ?_, ?_⟩
  · rw [appendFull_times]; simp [hlen]
  · intro k hkk
    obtain ⟨l, hl, hle⟩ := hks k hkk
    obtain ⟨v, hv⟩ := dictVal_isSome d k (by rw [hd]; exact hkk)
    refine ⟨(resize l (f.times.length + 1)).set f.times.length v, ?_, ?_⟩
    · rw [hget, hv, hl]; rfl
    · simp [length_resize, hlen]
  · intro i t' d' hi
    rcases Nat.lt_trichotomy i slots.length with hlt | heq | hgt
    · rw [List.getElem?_append_left hlt] at hi
      obtain ⟨h1, h2⟩ := hrec i t' d' hi
      refine ⟨by rw [appendFull_times, List.getElem?_append_left (by omega), h1], fun k hkk => ?_⟩
      obtain ⟨l, v, hl, hv, hdv⟩ := h2 k hkk
      obtain ⟨w, hw⟩ := dictVal_isSome d k (by rw [hd]; exact hkk)
      refine ⟨(resize l (f.times.length + 1)).set f.times.length w, v, ?_, ?_, hdv⟩
      · rw [hget, hw, hl]; rfl
      · rw [List.getElem?_set_ne (by omega)]
        exact getElem?_resize_of_some hv (by omega)
    · subst heq
      simp only [List.getElem?_append_right le_rfl, Nat.sub_self, List.getElem?_cons_zero,
        Option.some.injEq, Prod.mk.injEq] at hi
      obtain ⟨rfl, rfl⟩ := hi
      refine ⟨by rw [appendFull_times, ← hlen]; simp, fun k hkk => ?_⟩
      obtain ⟨l, hl, hle⟩ := hks k hkk
      obtain ⟨v, hv⟩ := dictVal_isSome d k (by rw [hd]; exact hkk)
      refine ⟨(resize l (f.times.length + 1)).set f.times.length v, v, ?_, ?_, hv⟩
      · rw [hget, hv, hl]; rfl
      · rw [← hlen]; exact getElem?_resize_set l _ v
    · rw [List.getElem?_eq_none (by simp; omega)] at hi; cases hi

theorem run_inv_from (keys : List Key) (h : List (Ev T V)) (hs : SameKeys keys h)
    (f : File T V) (slots : List (Option (T × Dict V))) (hf : Inv keys f slots) :
    ∃ f' slots', h.foldl step (some f) = some f' ∧ Inv keys f' slots' ∧
      slots'.filterMap id = slots.filterMap id ++ completed h := by
  induction h generalizing f slots with
  | nil => exact ⟨f, slots, rfl, hf, by simp [completed]⟩
  | cons e h ih =>
    have hs' : SameKeys keys h := ⟨hs.1, fun x hx => hs.2 x (by simp [hx])⟩
    have he := hs.2 e (by simp)
    have key : ∀ t d, d.map Prod.fst = keys →
        addDict (some f) t d =
        (some (appendUpTo (appendOps f.times.length t d).length f.times.length f t d), none) :=
      fun t d hd => addDict_ok f t d fun k hk => by
        obtain ⟨l, hl, _⟩ := hf.2.1 k (hd ▸ hk)
        exact ⟨l, hl⟩
    cases e with
    | start t d =>
      obtain ⟨f', s', h1, h2, h3⟩ := ih hs' _ _ (inv_append keys hs.1 f slots hf t d he)
      refine ⟨f', s', ?_, h2, by simpa [completed] using h3⟩
      simp only [List.foldl_cons, step, initFiles, key t d he]
      exact h1
    | save t d =>
      obtain ⟨f', s', h1, h2, h3⟩ := ih hs' _ _ (inv_append keys hs.1 f slots hf t d he)
      refine ⟨f', s', ?_, h2, by simpa [completed] using h3⟩
      simp only [List.foldl_cons, step, key t d he]
      exact h1
    | crash m t d =>
      obtain ⟨more, hm, hinv⟩ := inv_crash keys f slots hf m t d
      obtain ⟨f', s', h1, h2, h3⟩ := ih hs' _ _ hinv
      refine ⟨f', s', by simpa [step] using h1, h2, ?_⟩
      rw [h3, List.filterMap_append, hm]
      simp [completed]

end Verif.Series
