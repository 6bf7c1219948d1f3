import Mathlib.Tactic.Linarith
import Verif.SpatioTemporal.Spec

namespace Verif.SpatioTemporal

open Verif.Modes

set_option linter.unusedSectionVars false

variable {Q V : Type*} [Field Q] [LinearOrder Q]

/-! ### Sorted lists -/

theorem firstIdx_ok {A : Type*} (p : A → Bool) (l : List A) (h : ∃ x ∈ l, p x = true) :
    firstIdx p l = .ok (l.findIdx p) := by
  unfold firstIdx
  rw [List.findIdx?_eq_some_of_exists h]

theorem arange_eq (l : List Q) (a b : Q) (hs : l.Pairwise (· < ·)) (last : Q)
    (hl : l.getLast? = some last) (ha : a ≤ last) :
    arangeMinMax l a b = .ok (List.range' (l.findIdx fun t => decide (a ≤ t))
      ((l.findIdx fun t => decide (b < t)) - l.findIdx fun t => decide (a ≤ t))) := by
  cases l with
  | nil => simp at hl
  | cons x l =>
    have hmem : last ∈ x :: l := List.mem_of_getLast? hl
    have hmax : ∀ t ∈ x :: l, t ≤ last := by
      intro t ht
      obtain ⟨ys, hys⟩ := List.getLast?_eq_some_iff.1 hl
      rw [hys] at ht hs
      rcases List.mem_append.1 ht with h | h
      · exact le_of_lt ((List.pairwise_append.1 hs).2.2 t h last (by simp))
      · exact le_of_eq (by simpa using h)
    unfold arangeMinMax
    rw [hl]
    simp only [List.head?_cons]
    have h1 : (if a ≤ x then Except.ok 0 else firstIdx (fun t => decide (a ≤ t)) (x :: l))
        = (.ok ((x :: l).findIdx fun t => decide (a ≤ t)) : Except Err ℕ) := by
      split_ifs with h
      · simp [List.findIdx_cons, h]
      · exact firstIdx_ok _ _ ⟨last, hmem, by simpa using ha⟩
    have h2 : (if last ≤ b then Except.ok (x :: l).length
        else firstIdx (fun t => decide (b < t)) (x :: l))
        = (.ok ((x :: l).findIdx fun t => decide (b < t)) : Except Err ℕ) := by
      split_ifs with h
      · congr 1
        symm
        rw [List.findIdx_eq_length]
        intro t ht
        simpa using le_trans (hmax t ht) h
      · exact firstIdx_ok _ _ ⟨last, hmem, by simpa using h⟩
    rw [h1, h2]

theorem filter_sorted (l : List Q) (a b : Q) (hs : l.Pairwise (· < ·)) :
    l.filter (fun t => decide (a ≤ t) && decide (t ≤ b))
      = (l.take (l.findIdx fun t => decide (b < t))).drop (l.findIdx fun t => decide (a ≤ t)) := by
  induction l with
  | nil => simp
  | cons x l ih =>
    have hs' := (List.pairwise_cons.1 hs).2
    have hx := (List.pairwise_cons.1 hs).1
    have ih := ih hs'
    by_cases hb : b < x
    · have : (x :: l).filter (fun t => decide (a ≤ t) && decide (t ≤ b)) = [] := by
        rw [List.filter_eq_nil_iff]
        intro t ht
        have : b < t := by
          rcases List.mem_cons.1 ht with h | h
          · exact h ▸ hb
          · exact lt_trans hb (hx t h)
        simp [not_le.2 this]
      rw [this]
      simp [List.findIdx_cons, hb]
    · by_cases ha : a ≤ x
      · have e : (fun t => decide (a ≤ t)) x = true := by simpa using ha
        have hlt : ∀ t ∈ l, (decide (a ≤ t) && decide (t ≤ b)) = decide (t ≤ b) := by
          intro t ht
          simp [le_trans ha (le_of_lt (hx t ht))]
        have hf0 : l.filter (fun t => decide (a ≤ t) && decide (t ≤ b))
            = l.take (l.findIdx fun t => decide (b < t)) := by
          rw [ih]
          cases l with
          | nil => simp
          | cons y l =>
            have : a ≤ y := le_trans ha (le_of_lt (hx y (by simp)))
            simp [List.findIdx_cons, this]
        rw [List.filter_cons_of_pos (by simp [ha, not_lt.1 hb]), hf0]
        simp [List.findIdx_cons, ha, hb]
      · rw [List.filter_cons_of_neg (by simp [ha]), ih]
        simp [List.findIdx_cons, ha, hb]

theorem range'_map {A : Type*} (l : List A) (s e : ℕ) (he : e ≤ l.length) :
    (List.range' s (e - s)).map (l[·]?) = ((l.take e).drop s).map some := by
  apply List.ext_getElem?
  intro i
  simp only [List.getElem?_map, List.getElem?_drop, List.getElem?_take]
  by_cases h : i < e - s
  · rw [List.getElem?_range' h]
    have h1 : s + i < e := by omega
    have h2 : s + i < l.length := by omega
    simp [h1, h2]
  · have : (List.range' s (e - s))[i]? = none := by simp; omega
    rw [this, if_neg (by omega)]
    rfl

/-- `get_arange_minmax` of sorted times: the indices of the times in `[a, b]`, in order. -/
theorem arange_spec (l : List Q) (a b : Q) (hs : l.Pairwise (· < ·)) (last : Q)
    (hl : l.getLast? = some last) (ha : a ≤ last) :
    ∃ its, arangeMinMax l a b = .ok its ∧
      its.map (l[·]?) = (l.filter fun t => decide (a ≤ t) && decide (t ≤ b)).map some := by
  refine ⟨_, arange_eq l a b hs last hl ha, ?_⟩
  rw [filter_sorted l a b hs, range'_map]
  exact List.findIdx_le_length

theorem takeWhile_eq_filter {A : Type*} (p : A → Bool) (l : List A)
    (h : l.Pairwise fun x y => p y = true → p x = true) : l.takeWhile p = l.filter p := by
  induction l with
  | nil => rfl
  | cons x l ih =>
    have hx := List.pairwise_cons.1 h
    by_cases hp : p x = true
    · rw [List.takeWhile_cons_of_pos hp, List.filter_cons_of_pos hp, ih hx.2]
    · rw [List.takeWhile_cons_of_neg hp, List.filter_cons_of_neg hp]
      symm
      rw [List.filter_eq_nil_iff]
      intro y hy hpy
      exact hp (hx.1 y hy hpy)

theorem filter_flatMap_drop {A B : Type*} (g : A → List B) (p : A → Bool) (l : List A)
    (h : ∀ x ∈ l, p x = false → g x = []) : (l.filter p).flatMap g = l.flatMap g := by
  induction l with
  | nil => rfl
  | cons x l ih =>
    have ih := ih fun y hy => h y (List.mem_cons_of_mem _ hy)
    cases hp : p x
    · rw [List.filter_cons_of_neg (by simp [hp]), ih, List.flatMap_cons, h x (by simp) hp]
      rfl
    · rw [List.filter_cons_of_pos hp, List.flatMap_cons, List.flatMap_cons, ih]

theorem sorted_ext {l m : List Q} (hl : l.Pairwise (· < ·)) (hm : m.Pairwise (· < ·))
    (h : ∀ x, x ∈ l ↔ x ∈ m) : l = m := by
  have hp : l.Perm m := by
    rw [List.perm_ext_iff_of_nodup]
    · exact h
    · exact hl.imp (fun h => ne_of_lt h)
    · exact hm.imp (fun h => ne_of_lt h)
  exact hp.eq_of_pairwise (fun a b _ _ h1 h2 => absurd h1 (not_lt.2 (le_of_lt h2))) hl hm

/-! ### Cells -/

theorem pyIdx_adims (b : Bounds) (h0 : b.has 0) (k : ℤ) (hk : b.has k) :
    ∃ j, pyIdx b.size k = some j ∧ b.adims[j]? = some k := by
  obtain ⟨h1, h2⟩ := h0
  obtain ⟨h3, h4⟩ := hk
  have hsz : (b.size : ℤ) = b.hi + 1 - b.lo := by unfold Bounds.size; omega
  unfold pyIdx
  by_cases hk0 : 0 ≤ k
  · refine ⟨k.toNat, by rw [if_pos ⟨hk0, by omega⟩], ?_⟩
    unfold Bounds.adims
    rw [List.getElem?_append_left (by simp; omega), List.getElem?_map,
      List.getElem?_range (by omega)]
    simp [hk0]
  · refine ⟨(b.size + k).toNat, by rw [if_neg (by omega), if_pos (by omega)], ?_⟩
    unfold Bounds.adims
    rw [List.getElem?_append_right (by simp; omega), List.getElem?_map,
      List.getElem?_range (by simp; omega)]
    simp
    omega

theorem adims_nodup (b : Bounds) : b.adims.Nodup := by
  unfold Bounds.adims
  rw [List.nodup_append]
  refine ⟨List.nodup_range.map (fun _ _ h => by simpa using h),
    List.nodup_range.map (fun _ _ h => by simpa using h), ?_⟩
  intro x hx y hy
  simp only [List.mem_map, List.mem_range] at hx hy
  obtain ⟨i, _, rfl⟩ := hx
  obtain ⟨j, hj, rfl⟩ := hy
  simp only [Int.ofNat_eq_natCast]
  omega

theorem adims_inj (b : Bounds) {i j : ℕ} {k : ℤ} (hi : b.adims[i]? = some k)
    (hj : b.adims[j]? = some k) : i = j := by
  obtain ⟨h1, h1'⟩ := List.getElem?_eq_some_iff.1 hi
  obtain ⟨h2, h2'⟩ := List.getElem?_eq_some_iff.1 hj
  exact (adims_nodup b).getElem_inj_iff.1 (h1'.trans h2'.symm)

/-- The cell of the mode `k`: the one where the arrays of wavenumbers have the value `k`. -/
def IsCell (bs : Bounds × Bounds × Bounds) (k : ℤ × ℤ × ℤ) (c : ℕ × ℕ × ℕ) : Prop :=
  bs.1.adims[c.1]? = some k.1 ∧ bs.2.1.adims[c.2.1]? = some k.2.1 ∧
    bs.2.2.adims[c.2.2]? = some k.2.2

theorem IsCell.unique {bs k c c'} (h : IsCell bs k c) (h' : IsCell bs k c') : c = c' := by
  obtain ⟨a, b, d⟩ := c
  obtain ⟨a', b', d'⟩ := c'
  have h1 := adims_inj _ h.1 h'.1
  have h2 := adims_inj _ h.2.1 h'.2.1
  have h3 := adims_inj _ h.2.2 h'.2.2
  simp_all

theorem IsCell.inj {bs k k' c} (h : IsCell bs k c) (h' : IsCell bs k' c) : k = k' := by
  obtain ⟨a, b, d⟩ := k
  obtain ⟨a', b', d'⟩ := k'
  have h1 := Option.some.inj (h.1.symm.trans h'.1)
  have h2 := Option.some.inj (h.2.1.symm.trans h'.2.1)
  have h3 := Option.some.inj (h.2.2.symm.trans h'.2.2)
  simp_all

theorem pyIdx3_cell (bs : Bounds × Bounds × Bounds) (h0 : ZeroIn bs) (k : ℤ × ℤ × ℤ)
    (hk : InRegion bs k) : ∃ c, pyIdx3 (shape bs) k = some c ∧ IsCell bs k c := by
  obtain ⟨i, hi, hi'⟩ := pyIdx_adims bs.1 h0.1 k.1 hk.1
  obtain ⟨j, hj, hj'⟩ := pyIdx_adims bs.2.1 h0.2.1 k.2.1 hk.2.1
  obtain ⟨l, hl, hl'⟩ := pyIdx_adims bs.2.2 h0.2.2 k.2.2 hk.2.2
  refine ⟨(i, j, l), ?_, hi', hj', hl'⟩
  unfold pyIdx3 shape
  simp only
  rw [hi, hj, hl]

/-! ### Writing -/

/-- The value of mode `k` at the time of index `it` is in the array. -/
def Filled (bs : Bounds × Bounds × Bounds) (S : List Q) (val : ℤ × ℤ × ℤ → Q → V)
    (k : ℤ × ℤ × ℤ) (it : ℕ) (arr : Arr V) : Prop :=
  ∀ c t, IsCell bs k c → S[it]? = some t → arr c it = some (val k t)

variable {bs : Bounds × Bounds × Bounds} {S : List Q} {val : ℤ × ℤ × ℤ → Q → V}

theorem writeCol_spec (h0 : ZeroIn bs) (it : ℕ) (t : Q) (ht : S[it]? = some t)
    (ps : List (ℤ × ℤ × ℤ)) (hps : ∀ k ∈ ps, InRegion bs k) (arr : Arr V) :
    ∃ arr', writeCol (shape bs) it (ps.zip (ps.map fun k => val k t)) arr = .ok arr' ∧
      (∀ k ∈ ps, Filled bs S val k it arr') ∧
      ∀ k i, Filled bs S val k i arr → Filled bs S val k i arr' := by
  induction ps generalizing arr with
  | nil => exact ⟨arr, rfl, by simp, fun _ _ h => h⟩
  | cons p ps ih =>
    obtain ⟨c, hc, hcell⟩ := pyIdx3_cell bs h0 p (hps p (by simp))
    set arr1 : Arr V := Function.update arr c (Function.update (arr c) it (some (val p t)))
      with harr1
    obtain ⟨arr', hw, hnew, hkeep⟩ := ih (fun k hk => hps k (List.mem_cons_of_mem _ hk)) arr1
    have hp1 : Filled bs S val p it arr1 := by
      intro c' t' hc' ht'
      rw [hc'.unique hcell, harr1]
      rw [ht] at ht'
      simp [Option.some.inj ht']
    have hk1 : ∀ k i, Filled bs S val k i arr → Filled bs S val k i arr1 := by
      intro k i hf c' t' hc' ht'
      by_cases hcc : c' = c
      · subst hcc
        by_cases hi : i = it
        · subst hi
          have := hc'.inj hcell
          subst this
          exact hp1 c' t' hc' ht'
        · rw [harr1]
          simp [hi, hf c' t' hc' ht']
      · rw [harr1, Function.update_of_ne hcc]
        exact hf c' t' hc' ht'
    refine ⟨arr', ?_, ?_, fun k i hf => hkeep k i (hk1 k i hf)⟩
    · simp only [List.map_cons, List.zip_cons_cons, writeCol, hc]
      exact hw
    · intro k hk
      rcases List.mem_cons.1 hk with rfl | hk
      · exact hkeep _ _ hp1
      · exact hnew k hk

theorem writeCols_spec (h0 : ZeroIn bs) (ps : List (ℤ × ℤ × ℤ)) (hps : ∀ k ∈ ps, InRegion bs k)
    (its : List ℕ) (F : List Q) (hF : its.map (S[·]?) = F.map some) (arr : Arr V) :
    ∃ arr', writeCols (shape bs) ps its (F.map fun t => ps.map fun k => val k t) arr = .ok arr' ∧
      (∀ k ∈ ps, ∀ it ∈ its, Filled bs S val k it arr') ∧
      ∀ k i, Filled bs S val k i arr → Filled bs S val k i arr' := by
  induction its generalizing F arr with
  | nil => exact ⟨arr, by simp [writeCols], by simp, fun _ _ h => h⟩
  | cons it its ih =>
    cases F with
    | nil => simp at hF
    | cons t F =>
      simp only [List.map_cons, List.cons.injEq] at hF
      obtain ⟨arr1, hw1, hn1, hk1⟩ := writeCol_spec (val := val) h0 it t hF.1 ps hps arr
      obtain ⟨arr', hw, hn, hk⟩ := ih F hF.2 arr1
      refine ⟨arr', ?_, ?_, fun k i h => hk k i (hk1 k i h)⟩
      · simp only [List.map_cons, writeCols, hw1]
        exact hw
      · intro k hkp i hi
        rcases List.mem_cons.1 hi with rfl | hi
        · exact hk _ _ (hn1 k hkp)
        · exact hn k hkp i hi

/-! ### One file -/

theorem getElem?_recs (f : File Q V) (i : ℕ) : f.times[i]? = (f.recs[i]?).map Prod.fst := by
  simp [File.times]

theorem cols_eq (f : File Q V) (ps : List (ℤ × ℤ × ℤ))
    (hv : ∀ e ∈ f.recs, e.2 = ps.map fun k => val k e.1) (its : List ℕ) (F : List Q)
    (h : its.map (f.times[·]?) = F.map some) :
    its.filterMap (fun i => f.recs[i]?.map Prod.snd) = F.map fun t => ps.map fun k => val k t := by
  induction its generalizing F with
  | nil =>
    cases F with
    | nil => rfl
    | cons => simp at h
  | cons i its ih =>
    cases F with
    | nil => simp at h
    | cons t F =>
      simp only [List.map_cons, List.cons.injEq] at h
      have h1 := h.1
      rw [getElem?_recs] at h1
      cases hr : f.recs[i]? with
      | none => rw [hr] at h1; simp at h1
      | some e =>
        rw [hr] at h1
        simp only [Option.map_some, Option.some.injEq] at h1
        rw [List.filterMap_cons, hr]
        simp only [Option.map_some, List.map_cons]
        rw [ih F h.2, hv e (List.mem_of_getElem? hr), h1]

theorem loadFile_spec (h0 : ZeroIn bs) (T : List Q) (hT : T.Pairwise (· < ·)) (a b : Q)
    (haT : a ∈ T) (ha : ∀ s ∈ S, a ≤ s) (haS : a ∈ S) 
    (hS : S = T.filter fun t => decide (a ≤ t) && decide (t ≤ b))
    (ps : List (ℤ × ℤ × ℤ)) (hps : ∀ k ∈ ps, InRegion bs k) (f : File Q V) (A B : List Q)
    (hf : T = A ++ f.times ++ B) (hn : f.times.head? = some f.tmin) (hfb : f.tmin ≤ b)
    (hv : ∀ e ∈ f.recs, e.2 = ps.map fun k => val k e.1) (arr : Arr V) :
    ∃ arr', loadFile (shape bs) ps S a b arr f = .ok arr' ∧
      (∀ k ∈ ps, ∀ it t, S[it]? = some t → t ∈ f.times → Filled bs S val k it arr') ∧
      ∀ k i, Filled bs S val k i arr → Filled bs S val k i arr' := by
  have hT' := hT
  rw [hf, List.pairwise_append, List.pairwise_append] at hT'
  obtain ⟨⟨_, hft, hAf⟩, _, hfB⟩ := hT'
  obtain ⟨last, hlast⟩ : ∃ last, f.times.getLast? = some last := by
    cases h : f.times.getLast? with
    | some x => exact ⟨x, rfl⟩
    | none =>
      rw [List.getLast?_eq_none_iff] at h
      rw [h] at hn
      simp at hn
  have hlmem : last ∈ f.times := List.mem_of_getLast? hlast
  have hmax : ∀ t ∈ f.times, t ≤ last := by
    intro t ht
    obtain ⟨ys, hys⟩ := List.getLast?_eq_some_iff.1 hlast
    rw [hys] at ht hft
    rcases List.mem_append.1 ht with h | h
    · exact le_of_lt ((List.pairwise_append.1 hft).2.2 t h last (by simp))
    · exact le_of_eq (by simpa using h)
  have hfm : f.tmin ∈ f.times := List.mem_of_head? hn
  have hSs : S.Pairwise (· < ·) := hS ▸ hT.filter _
  unfold loadFile
  rw [hlast]
  simp only
  by_cases hskip : last < a
  · rw [if_pos hskip]
    refine ⟨arr, rfl, ?_, fun _ _ h => h⟩
    intro k _ it t ht htf
    exact absurd (lt_of_le_of_lt (hmax t htf) hskip)
      (not_lt.2 (ha t (List.mem_of_getElem? ht)))
  · rw [if_neg hskip]
    have hla : a ≤ last := not_lt.1 hskip
    obtain ⟨itsF, he, hits⟩ := arange_spec f.times a b hft last hlast hla
    set F := f.times.filter fun t => decide (a ≤ t) && decide (t ≤ b) with hF
    have hFmem : ∀ t, t ∈ F ↔ t ∈ f.times ∧ a ≤ t ∧ t ≤ b := by
      intro t; rw [hF, List.mem_filter]; simp
    have hSmem : ∀ t, t ∈ S ↔ t ∈ T ∧ a ≤ t ∧ t ≤ b := by
      intro t; rw [hS, List.mem_filter]; simp
    have hfT : ∀ t ∈ f.times, t ∈ T := by
      intro t ht; rw [hf]; simp [ht]
    have hFS : ∀ t ∈ F, t ∈ S := fun t ht =>
      (hSmem t).2 ⟨hfT t ((hFmem t).1 ht).1, ((hFmem t).1 ht).2⟩
    have hFne : F ≠ [] := by
      by_cases h : a ≤ f.tmin
      · exact List.ne_nil_of_mem ((hFmem f.tmin).2 ⟨hfm, h, hfb⟩)
      · have h := not_le.1 h
        have haf : a ∈ f.times := by
          have := haT
          rw [hf, List.mem_append, List.mem_append] at this
          rcases this with (h' | h') | h'
          · exact absurd (hAf a h' f.tmin hfm) (not_lt.2 (le_of_lt h))
          · exact h'
          · exact absurd (hfB last (by simp [hlmem]) a h') (not_lt.2 hla)
        exact List.ne_nil_of_mem ((hFmem a).2 ⟨haf, le_rfl, ((hSmem a).1 haS).2.2⟩)
    have hFp : F.Pairwise (· < ·) := hft.filter _
    rw [he]
    simp only
    have hhead : itsF.head?.bind (f.times[·]?) = F.head? := by
      have := congrArg List.head? hits
      simp only [List.head?_map] at this
      cases hi : itsF.head? with
      | none =>
        rw [hi] at this
        cases hF' : F.head? with
        | none => simp
        | some => rw [hF'] at this; simp at this
      | some i =>
        rw [hi] at this
        cases hF' : F.head? with
        | none => rw [hF'] at this; simp at this
        | some => rw [hF'] at this; simpa using this
    have hlst : itsF.getLast?.bind (f.times[·]?) = F.getLast? := by
      have := congrArg List.getLast? hits
      simp only [List.getLast?_map] at this
      cases hi : itsF.getLast? with
      | none =>
        rw [hi] at this
        cases hF' : F.getLast? with
        | none => simp
        | some => rw [hF'] at this; simp at this
      | some i =>
        rw [hi] at this
        cases hF' : F.getLast? with
        | none => rw [hF'] at this; simp at this
        | some => rw [hF'] at this; simpa using this
    rw [hhead, hlst]
    obtain ⟨x, hx⟩ : ∃ x, F.head? = some x := by
      cases hF' : F with
      | nil => exact absurd hF' hFne
      | cons y l => exact ⟨y, rfl⟩
    obtain ⟨y, hy⟩ : ∃ y, F.getLast? = some y := by
      cases h : F.getLast? with
      | some z => exact ⟨z, rfl⟩
      | none => exact absurd (List.getLast?_eq_none_iff.1 h) hFne
    rw [hx, hy]
    simp only
    have hxF := List.mem_of_head? hx
    have hyF := List.mem_of_getLast? hy
    have hxmin : ∀ t ∈ F, x ≤ t := by
      intro t ht
      cases hF' : F with
      | nil => exact absurd hF' hFne
      | cons z l =>
        rw [hF'] at hx ht hFp
        have : z = x := by simpa using hx
        subst this
        rcases List.mem_cons.1 ht with h | h
        · exact le_of_eq h.symm
        · exact le_of_lt ((List.pairwise_cons.1 hFp).1 t h)
    have hymax : ∀ t ∈ F, t ≤ y := by
      intro t ht
      obtain ⟨ys, hys⟩ := List.getLast?_eq_some_iff.1 hy
      rw [hys] at ht hFp
      rcases List.mem_append.1 ht with h | h
      · exact le_of_lt ((List.pairwise_append.1 hFp).2.2 t h y (by simp))
      · exact le_of_eq (by simpa using h)
    obtain ⟨lS, hlS⟩ : ∃ l, S.getLast? = some l := by
      cases h : S.getLast? with
      | some z => exact ⟨z, rfl⟩
      | none =>
        have := List.getLast?_eq_none_iff.1 h
        rw [this] at haS
        simp at haS
    have hxl : x ≤ lS := by
      obtain ⟨ys, hys⟩ := List.getLast?_eq_some_iff.1 hlS
      have hxS := hFS x hxF
      rw [hys] at hxS hSs
      rcases List.mem_append.1 hxS with h | h
      · exact le_of_lt ((List.pairwise_append.1 hSs).2.2 x h lS (by simp))
      · exact le_of_eq (by simpa using h)
    obtain ⟨its, hits1, hits2⟩ := arange_spec S x y hSs lS hlS hxl
    have hSF : (S.filter fun t => decide (x ≤ t) && decide (t ≤ y)) = F := by
      apply sorted_ext (hSs.filter _) hFp
      intro t
      rw [List.mem_filter]
      constructor
      · rintro ⟨htS, ht⟩
        simp only [Bool.and_eq_true, decide_eq_true_eq] at ht
        have h1 := (hSmem t).1 htS
        refine (hFmem t).2 ⟨?_, h1.2⟩
        have := h1.1
        rw [hf, List.mem_append, List.mem_append] at this
        rcases this with (h' | h') | h'
        · exact absurd (hAf t h' x ((hFmem x).1 hxF).1) (not_lt.2 ht.1)
        · exact h'
        · exact absurd (hfB y (by simp [((hFmem y).1 hyF).1]) t h') (not_lt.2 ht.2)
      · intro ht
        exact ⟨hFS t ht, by simp [hxmin t ht, hymax t ht]⟩
    rw [hSF] at hits2
    rw [hits1]
    simp only
    rw [cols_eq f ps hv itsF F hits]
    obtain ⟨arr', hw, hnew, hkeep⟩ := writeCols_spec (val := val) h0 ps hps its F hits2 arr
    refine ⟨arr', hw, ?_, hkeep⟩
    intro k hk it t ht htf
    refine hnew k hk it ?_
    have htF : t ∈ F := (hFmem t).2 ⟨htf, ((hSmem t).1 (List.mem_of_getElem? ht)).2⟩
    have : some t ∈ its.map (S[·]?) := by rw [hits2]; exact List.mem_map_of_mem htF
    obtain ⟨j, hj, hjt⟩ := List.mem_map.1 this
    obtain ⟨h1, h1'⟩ := List.getElem?_eq_some_iff.1 hjt
    obtain ⟨h2, h2'⟩ := List.getElem?_eq_some_iff.1 ht
    have hnd : S.Nodup := hSs.imp (fun h => ne_of_lt h)
    have : j = it := hnd.getElem_inj_iff.1 (h1'.trans h2'.symm)
    exact this ▸ hj

/-! ### One process -/

theorem split_file {A : Type*} (l : List A) (f : A) (h : f ∈ l) (g : A → List Q) :
    ∃ X Y, l.flatMap g = X ++ g f ++ Y := by
  obtain ⟨s, t, rfl⟩ := List.append_of_mem h
  exact ⟨s.flatMap g, t.flatMap g, by simp⟩

theorem starts_sorted (files : List (File Q V)) (hT : (files.flatMap File.times).Pairwise (· < ·))
    (hn : ∀ f ∈ files, f.times.head? = some f.tmin) :
    files.Pairwise fun f g => (∀ s ∈ f.times, s < g.tmin) ∧ f.tmin < g.tmin := by
  induction files with
  | nil => exact List.Pairwise.nil
  | cons f files ih =>
    rw [List.flatMap_cons, List.pairwise_append] at hT
    refine List.pairwise_cons.2 ⟨?_, ih hT.2.1 fun g hg => hn g (List.mem_cons_of_mem _ hg)⟩
    intro g hg
    have hgm : g.tmin ∈ files.flatMap File.times :=
      List.mem_flatMap.2 ⟨g, hg, List.mem_of_head? (hn g (List.mem_cons_of_mem _ hg))⟩
    exact ⟨fun s hs => hT.2.2 s hs _ hgm, hT.2.2 _ (List.mem_of_head? (hn f (by simp))) _ hgm⟩

theorem sortFiles_eq (files : List (File Q V)) (h : files.Pairwise fun f g => f.tmin < g.tmin) :
    sortFiles files = files :=
  List.Pairwise.insertionSort_eq (h.imp fun h => le_of_lt h)

/-- The filter on file names drops only files whose times are all before `t`. -/
def Keeps (t : Q) (files : List (File Q V)) : Prop :=
  ∃ n, filterFiles t files = .ok (files.drop n) ∧
    ∀ f ∈ files.take n, ∀ s ∈ f.times, s < t

theorem taken_eq (files : List (File Q V)) (b : Q)
    (h : files.Pairwise fun f g => (∀ s ∈ f.times, s < g.tmin) ∧ f.tmin < g.tmin) :
    (files.takeWhile fun f => decide (f.tmin ≤ b)) = files.filter fun f => decide (f.tmin ≤ b) := by
  apply takeWhile_eq_filter
  refine h.imp ?_
  intro f g hfg hg
  simp only [decide_eq_true_eq] at hg ⊢
  exact le_trans (le_of_lt hfg.2) hg

theorem loadRank_spec (h0 : ZeroIn bs) (T : List Q) (hT : T.Pairwise (· < ·)) (a b : Q)
    (haT : a ∈ T) (ha : ∀ s ∈ S, a ≤ s) (haS : a ∈ S)
    (hS : S = T.filter fun t => decide (a ≤ t) && decide (t ≤ b)) (r : Rank Q V)
    (hr : Recorded r T val) (hps : ∀ k ∈ r.probes, InRegion bs k) (hkeeps : Keeps a r.files)
    (arr : Arr V) :
    ∃ arr', loadRank (shape bs) S a b arr r = .ok arr' ∧
      (∀ k ∈ r.probes, ∀ it, Filled bs S val k it arr') ∧
      ∀ k i, Filled bs S val k i arr → Filled bs S val k i arr' := by
  have hst := starts_sorted r.files (hr.times ▸ hT) hr.names
  obtain ⟨n, hn, hdrop⟩ := hkeeps
  have hst' : (r.files.drop n).Pairwise
      fun f g => (∀ s ∈ f.times, s < g.tmin) ∧ f.tmin < g.tmin :=
    hst.sublist (List.drop_sublist _ _)
  unfold loadRank
  rw [sortFiles_eq r.files (hst.imp fun h => h.2), hn]
  simp only
  rw [taken_eq _ b hst']
  have key : ∀ (l : List (File Q V)), (∀ f ∈ l, f ∈ r.files ∧ f.tmin ≤ b) → ∀ arr : Arr V,
      ∃ arr', loop (loadFile (shape bs) r.probes S a b) l arr = .ok arr' ∧
        (∀ f ∈ l, ∀ k ∈ r.probes, ∀ it t, S[it]? = some t → t ∈ f.times →
          Filled bs S val k it arr') ∧
        ∀ k i, Filled bs S val k i arr → Filled bs S val k i arr' := by
    intro l
    induction l with
    | nil => exact fun _ arr => ⟨arr, rfl, by simp, fun _ _ h => h⟩
    | cons f l ih =>
      intro hl arr
      obtain ⟨hf, hfb⟩ := hl f (by simp)
      obtain ⟨A, B, hAB⟩ := split_file r.files f hf File.times
      rw [hr.times] at hAB
      obtain ⟨arr1, h1, h2, h3⟩ := loadFile_spec h0 T hT a b haT ha haS hS r.probes hps f A B hAB
        (hr.names f hf) hfb (hr.values f hf) arr
      obtain ⟨arr', g1, g2, g3⟩ := ih (fun g hg => hl g (List.mem_cons_of_mem _ hg)) arr1
      refine ⟨arr', by simp only [loop, h1]; exact g1, ?_, fun k i h => g3 k i (h3 k i h)⟩
      intro g hg k hk it t ht htg
      rcases List.mem_cons.1 hg with rfl | hg
      · exact g3 _ _ (h2 k hk it t ht htg)
      · exact g2 g hg k hk it t ht htg
  obtain ⟨arr', g1, g2, g3⟩ := key ((r.files.drop n).filter fun f => decide (f.tmin ≤ b)) (by
    intro f hf
    rw [List.mem_filter] at hf
    exact ⟨List.mem_of_mem_drop hf.1, by simpa using hf.2⟩) arr
  refine ⟨arr', g1, ?_, g3⟩
  intro k hk it c t hc ht
  have htS := List.mem_of_getElem? ht
  rw [hS, List.mem_filter] at htS
  have htb : t ≤ b := by
    have := htS.2
    simp only [Bool.and_eq_true, decide_eq_true_eq] at this
    exact this.2
  have hat := ha t (List.mem_of_getElem? ht)
  have htT := htS.1
  rw [← hr.times, List.mem_flatMap] at htT
  obtain ⟨f, hf, htf⟩ := htT
  have hmem : f ∈ r.files.drop n := by
    have : f ∈ r.files.take n ++ r.files.drop n := by rw [List.take_append_drop]; exact hf
    rcases List.mem_append.1 this with h | h
    · exact absurd (hdrop f h t htf) (not_lt.2 hat)
    · exact h
  have hfm : f.tmin ≤ t := by
    have hh := hr.names f hf
    obtain ⟨A, B, hAB⟩ := split_file r.files f hf File.times
    rw [hr.times] at hAB
    have hft : f.times.Pairwise (· < ·) := by
      rw [hAB, List.pairwise_append, List.pairwise_append] at hT
      exact hT.1.2.1
    cases hft' : f.times with
    | nil => rw [hft'] at hh; simp at hh
    | cons z l =>
      rw [hft'] at hh htf hft
      have : z = f.tmin := by simpa using hh
      subst this
      rcases List.mem_cons.1 htf with h | h
      · exact le_of_eq h.symm
      · exact le_of_lt ((List.pairwise_cons.1 hft).1 t h)
  exact g2 f (List.mem_filter.2 ⟨hmem, by simpa using le_trans hfm htb⟩) k hk it t ht htf c t hc ht

/-! ### All processes -/

theorem getTimes_eq (T : List Q) (hT : T.Pairwise (· < ·)) (r : Rank Q V) (hr : Recorded r T val)
    (a b : Q) (n : ℕ) (hdrop : ∀ f ∈ r.files.take n, ∀ s ∈ f.times, s < a) :
    getTimes (r.files.drop n) a b = T.filter fun t => decide (a ≤ t) && decide (t ≤ b) := by
  have hst := starts_sorted r.files (hr.times ▸ hT) hr.names
  have hst' : (r.files.drop n).Pairwise
      fun f g => (∀ s ∈ f.times, s < g.tmin) ∧ f.tmin < g.tmin :=
    hst.sublist (List.drop_sublist _ _)
  unfold getTimes
  rw [taken_eq _ b hst', filter_flatMap_drop]
  · have h1 : (r.files.take n).flatMap
        (fun f => f.times.filter fun t => decide (a ≤ t) && decide (t ≤ b)) = [] := by
      rw [List.flatMap_eq_nil_iff]
      intro f hf
      rw [List.filter_eq_nil_iff]
      intro t ht
      simp [not_le.2 (hdrop f hf t ht)]
    rw [← hr.times, List.filter_flatMap]
    conv_rhs => rw [← List.take_append_drop n r.files, List.flatMap_append]
    rw [h1]
    rfl
  · intro f hf hp
    simp only [decide_eq_false_iff_not, not_le] at hp
    rw [List.filter_eq_nil_iff]
    intro t ht
    have hf' := List.mem_of_mem_drop hf
    have hh := hr.names f hf'
    obtain ⟨A, B, hAB⟩ := split_file r.files f hf' File.times
    rw [hr.times] at hAB
    have hft : f.times.Pairwise (· < ·) := by
      rw [hAB, List.pairwise_append, List.pairwise_append] at hT
      exact hT.1.2.1
    have : b < t := by
      cases hft' : f.times with
      | nil => rw [hft'] at hh; simp at hh
      | cons z l =>
        rw [hft'] at hh ht hft
        have hz : z = f.tmin := by simpa using hh
        rcases List.mem_cons.1 ht with h | h
        · rw [h, hz]; exact hp
        · exact lt_trans (hz ▸ hp) ((List.pairwise_cons.1 hft).1 t h)
    simp [not_le.2 this]

theorem loadRanks_spec (h0 : ZeroIn bs) (T : List Q) (hT : T.Pairwise (· < ·)) (a b : Q)
    (haT : a ∈ T) (ha : ∀ s ∈ S, a ≤ s) (haS : a ∈ S)
    (hS : S = T.filter fun t => decide (a ≤ t) && decide (t ≤ b)) (ranks : List (Rank Q V))
    (hr : ∀ r ∈ ranks, Recorded r T val) (hps : ∀ r ∈ ranks, ∀ k ∈ r.probes, InRegion bs k)
    (hkeeps : ∀ r ∈ ranks, Keeps a r.files) (arr : Arr V) :
    ∃ arr', loop (loadRank (shape bs) S a b) ranks arr = .ok arr' ∧
      (∀ r ∈ ranks, ∀ k ∈ r.probes, ∀ it, Filled bs S val k it arr') ∧
      ∀ k i, Filled bs S val k i arr → Filled bs S val k i arr' := by
  induction ranks generalizing arr with
  | nil => exact ⟨arr, rfl, by simp, fun _ _ h => h⟩
  | cons r ranks ih =>
    obtain ⟨arr1, h1, h2, h3⟩ := loadRank_spec h0 T hT a b haT ha haS hS r (hr r (by simp))
      (hps r (by simp)) (hkeeps r (by simp)) arr
    obtain ⟨arr', g1, g2, g3⟩ := ih (fun x hx => hr x (List.mem_cons_of_mem _ hx))
      (fun x hx => hps x (List.mem_cons_of_mem _ hx))
      (fun x hx => hkeeps x (List.mem_cons_of_mem _ hx)) arr1
    refine ⟨arr', by simp only [loop, h1]; exact g1, ?_, fun k i h => g3 k i (h3 k i h)⟩
    intro x hx k hk it
    rcases List.mem_cons.1 hx with rfl | hx
    · exact g3 _ _ (h2 k hk it)
    · exact g2 x hx k hk it

/-! ### The filter on the names of the files -/

section ordered

variable [IsStrictOrderedRing Q]

theorem diffs_pos : ∀ l : List Q, l.Pairwise (· < ·) → ∀ d ∈ diffs l, 0 < d
  | [], _, d, hd => by simp [diffs] at hd
  | [_], _, d, hd => by simp [diffs] at hd
  | a :: b :: l, h, d, hd => by
    rw [diffs, List.mem_cons] at hd
    rcases hd with rfl | hd
    · exact sub_pos.2 ((List.pairwise_cons.1 h).1 b (by simp))
    · exact diffs_pos (b :: l) (List.pairwise_cons.1 h).2 d hd

theorem diffs_min (l : List Q) (hl : 2 ≤ l.length) : ∃ d, (diffs l).min? = some d ∧ d ∈ diffs l := by
  match l, hl with
  | a :: b :: l, _ =>
    cases h : (diffs (a :: b :: l)).min? with
    | none => rw [List.min?_eq_none_iff] at h; simp [diffs] at h
    | some d => exact ⟨d, rfl, List.min?_mem h⟩

theorem keeps_of_exists (files : List (File Q V)) (hne : files ≠ []) (t : Q)
    (hex : ∀ d ∈ diffs (files.map File.tmin), ∃ f ∈ files, t - f.tmin < d)
    (hdrop : ∀ d ∈ diffs (files.map File.tmin), ∀ (n : ℕ), ∀ f ∈ files.take n,
      n = (files.map fun f => t - f.tmin).findIdx (fun x => decide (x < d)) →
        ∀ s ∈ f.times, s < t) : Keeps t files := by
  unfold Keeps filterFiles
  by_cases h1 : files.length = 1
  · exact ⟨0, by simp [h1], by simp⟩
  · rw [if_neg h1]
    have h2 : 2 ≤ (files.map File.tmin).length := by
      have := List.length_pos_of_ne_nil hne
      rw [List.length_map]; omega
    obtain ⟨d, hd, hdm⟩ := diffs_min _ h2
    rw [hd]
    simp only
    obtain ⟨f, hf, hfd⟩ := hex d hdm
    rw [firstIdx_ok _ _ ⟨t - f.tmin, List.mem_map.2 ⟨f, hf, rfl⟩, by simpa using hfd⟩]
    exact ⟨_, rfl, fun f hf => hdrop d hdm _ f hf rfl⟩

theorem keeps_of_le (files : List (File Q V)) (hne : files ≠ [])
    (hs : files.Pairwise fun f g => f.tmin < g.tmin) (t : Q) (f0 : File Q V)
    (hf0 : files.head? = some f0) (ht : t ≤ f0.tmin) : Keeps t files := by
  have hpos := diffs_pos (files.map File.tmin) (List.pairwise_map.2 hs)
  have hlt : ∀ d ∈ diffs (files.map File.tmin), t - f0.tmin < d := fun d hd =>
    lt_of_le_of_lt (sub_nonpos.2 ht) (hpos d hd)
  refine keeps_of_exists files hne t (fun d hd => ⟨f0, List.mem_of_head? hf0, hlt d hd⟩) ?_
  intro d hd n f hf hn
  cases files with
  | nil => simp at hf0
  | cons g l =>
    have : g = f0 := by simpa using hf0
    subst this
    rw [List.map_cons, List.findIdx_cons] at hn
    rw [decide_eq_true (hlt d hd)] at hn
    simp only [cond_true] at hn
    rw [hn] at hf
    simp at hf

theorem keeps_of_regular (files : List (File Q V)) (hreg : Regular files) (t : Q)
    (f : File Q V) (hf : f ∈ files) (s : Q) (hs : s ∈ f.times) (hts : t ≤ s) : Keeps t files := by
  refine keeps_of_exists files (List.ne_nil_of_mem hf) t
    (fun d hd => ⟨f, hf, lt_of_le_of_lt (sub_le_sub_right hts _) (hreg f hf s hs d hd)⟩) ?_
  intro d hd n g hg hn s' hs'
  obtain ⟨i, hi, hgi⟩ := List.mem_iff_getElem.1 hg
  rw [List.length_take] at hi
  have hin : i < n := lt_of_lt_of_le hi (min_le_left _ _)
  have := List.not_of_lt_findIdx (hn ▸ hin)
  rw [List.getElem_map] at this
  rw [List.getElem_take] at hgi
  rw [hgi] at this
  simp only [decide_eq_false_iff_not, not_lt] at this
  have h2 := hreg g (List.mem_of_mem_take hg) s' hs' d hd
  linarith

theorem load_spec (h0 : ZeroIn bs) (T : List Q) (hT : T.Pairwise (· < ·)) (a b : Q)
    (tmax : Option Q) (htmax : tmax = some b ∨ (tmax = none ∧ T.getLast? = some b))
    (hex : ∃ t ∈ T, a ≤ t ∧ t ≤ b) (ranks : List (Rank Q V)) (hne : ranks ≠ [])
    (hr : ∀ r ∈ ranks, Recorded r T val) (hps : ∀ r ∈ ranks, ∀ k ∈ r.probes, InRegion bs k)
    (hkeeps : ∀ r ∈ ranks, ∀ t, (∃ s ∈ T, t ≤ s) → (t = a ∨ (t ∈ T ∧ a ≤ t ∧
      ∀ s ∈ T, a ≤ s → t ≤ s)) → Keeps t r.files) :
    ∃ s, load bs ranks a tmax = .ok s ∧
      ∀ r ∈ ranks, ∀ k ∈ r.probes, Holds bs T a b val k s := by
  obtain ⟨t0, ht0, hat0, ht0b⟩ := hex
  cases ranks with
  | nil => exact absurd rfl hne
  | cons r0 rs =>
    have hr0 := hr r0 (by simp)
    have hst := starts_sorted r0.files (hr0.times ▸ hT) hr0.names
    obtain ⟨n, hn, hdrop⟩ := hkeeps r0 (by simp) a ⟨t0, ht0, hat0⟩ (Or.inl rfl)
    have htm : (tmax <|> (r0.files.drop n).getLast?.bind fun f => f.times.getLast?) = some b := by
      rcases htmax with h | ⟨h, hl⟩
      · rw [h]; rfl
      · rw [h]
        have hb := List.mem_of_getLast? hl
        have hab : a ≤ b := le_trans hat0 ht0b
        obtain ⟨ys, hys⟩ := List.getLast?_eq_some_iff.1 hl
        -- the last file
        cases hfl : r0.files.getLast? with
        | none =>
          have := List.getLast?_eq_none_iff.1 hfl
          have h2 := hr0.times
          rw [this] at h2
          rw [← h2] at ht0
          simp at ht0
        | some fl =>
          obtain ⟨gs, hgs⟩ := List.getLast?_eq_some_iff.1 hfl
          have hflm := List.mem_of_getLast? hfl
          have hflne : fl.times ≠ [] := by
            intro h
            have := hr0.names fl hflm
            rw [h] at this
            simp at this
          have hflast : fl.times.getLast? = some b := by
            have h2 := hr0.times
            rw [hgs, List.flatMap_append, List.flatMap_cons, List.flatMap_nil,
              List.append_nil] at h2
            rw [← h2, List.getLast?_append] at hl
            cases h3 : fl.times.getLast? with
            | none => exact absurd (List.getLast?_eq_none_iff.1 h3) hflne
            | some z => rw [h3] at hl; simpa using hl
          have hdl : (r0.files.drop n).getLast? = some fl := by
            rw [List.getLast?_drop, if_neg, hfl]
            intro hlen
            have : fl ∈ r0.files.take n := by
              rw [List.take_of_length_le hlen]; exact hflm
            exact absurd (hdrop fl this b (List.mem_of_getLast? hflast)) (not_lt.2 hab)
          rw [hdl]
          exact hflast
    unfold load
    simp only
    rw [sortFiles_eq r0.files (hst.imp fun h => h.2), hn]
    simp only
    rw [htm]
    simp only
    rw [getTimes_eq T hT r0 hr0 a b n hdrop]
    set S := T.filter fun t => decide (a ≤ t) && decide (t ≤ b) with hS
    have hSmem : ∀ t, t ∈ S ↔ t ∈ T ∧ a ≤ t ∧ t ≤ b := by
      intro t; rw [hS, List.mem_filter]; simp
    have ht0S : t0 ∈ S := (hSmem t0).2 ⟨ht0, hat0, ht0b⟩
    cases hmin : S.min? with
    | none => rw [List.min?_eq_none_iff] at hmin; rw [hmin] at ht0S; simp at ht0S
    | some a' =>
      cases hmax : S.max? with
      | none => rw [List.max?_eq_none_iff] at hmax; rw [hmax] at ht0S; simp at ht0S
      | some b' =>
        simp only
        obtain ⟨ha'S, ha'⟩ := List.min?_eq_some_iff.1 hmin
        obtain ⟨hb'S, hb'⟩ := List.max?_eq_some_iff.1 hmax
        have hS' : S = T.filter fun t => decide (a' ≤ t) && decide (t ≤ b') := by
          apply sorted_ext (hT.filter _) (hT.filter _)
          intro t
          refine Iff.trans ?_ List.mem_filter.symm
          constructor
          · intro ht
            exact ⟨((hSmem t).1 ht).1, by simp [ha' t ht, hb' t ht]⟩
          · rintro ⟨htT, ht⟩
            simp only [Bool.and_eq_true, decide_eq_true_eq] at ht
            exact (hSmem t).2 ⟨htT, le_trans ((hSmem a').1 ha'S).2.1 ht.1,
              le_trans ht.2 ((hSmem b').1 hb'S).2.2⟩
        have ha1 := (hSmem a').1 ha'S
        obtain ⟨arr', h1, h2, _⟩ := loadRanks_spec h0 T hT a' b' ha1.1 ha' ha'S hS' (r0 :: rs) hr
          hps (fun r hr' => hkeeps r hr' a' ⟨a', ha1.1, le_rfl⟩ (Or.inr ⟨ha1.1, ha1.2.1, by
            intro s hs has
            by_cases hsb : s ≤ b
            · exact ha' s ((hSmem s).2 ⟨hs, has, hsb⟩)
            · exact le_trans ha1.2.2 (le_of_lt (not_le.1 hsb))⟩)) (fun _ _ => none)
        rw [h1]
        refine ⟨⟨S, arr'⟩, rfl, ?_⟩
        intro r hr' k hk
        refine ⟨rfl, ?_⟩
        intro i0 i1 i2 e0 e1 e2 it t ht
        exact h2 r hr' k hk it (i0, i1, i2) t ⟨e0, e1, e2⟩ ht

end ordered

end Verif.SpatioTemporal
