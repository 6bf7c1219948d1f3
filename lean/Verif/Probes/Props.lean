import Verif.Probes.Lemmas

/-! # C93: the probes of the temporal spectra and the 3D arrays of their values -/

namespace Verif.Probes

open Verif.Modes

/-- C93: the positions of the probes are points of the grid, regularly spaced by a positive whole number of grid spacings, the nearest one to the
parameter; the first one is the nearest to the beginning of the region. -/
theorem C93_positions (a : Axis) (p : Par) (h : 0 < a.delta) : ∃ (k m : ℤ), 1 ≤ m ∧
    (∀ (i : ℕ) (x : ℚ), (seq a p)[i]? = some x → x = a.delta * ((k + i * m : ℤ) : ℚ)) ∧
    (∀ j : ℤ, |p.lo - a.delta * k| ≤ |p.lo - a.delta * j|) ∧
    (∀ j : ℤ, 1 ≤ j → |p.delta - a.delta * m| ≤ |p.delta - a.delta * j|) := by
  have near : ∀ (x : ℚ) (j : ℤ), |x - a.delta * (roundEven (x / a.delta) : ℚ)| ≤ |x - a.delta * (j : ℚ)| := by
    intro x j
    have h1 := nearest_of_half (roundEven_near (x / a.delta)) j
    have e : ∀ k : ℤ, x - a.delta * (k : ℚ) = a.delta * (x / a.delta - k) := by
      intro k
      have := h.ne'
      field_simp
    rw [e, e, abs_mul, abs_mul]
    exact mul_le_mul_of_nonneg_left h1 (abs_nonneg _)
  refine ⟨k0 a p, mult a p, mult_pos a p, fun i x hx => ((seq_get a p h i x).1 hx).2, fun j => near p.lo j, fun j hj => ?_⟩
  unfold mult
  rcases le_total 1 (roundEven (p.delta / a.delta)) with h1 | h1
  · rw [max_eq_right h1]
    exact near p.delta j
  · rw [max_eq_left h1]
    -- below one grid spacing and a half
    have h2 := roundEven_near (p.delta / a.delta)
    have h3 : p.delta / a.delta ≤ 3 / 2 := by
      have h4 := (abs_le.1 h2).2
      have h5 : ((roundEven (p.delta / a.delta) : ℤ) : ℚ) ≤ 1 := by exact_mod_cast h1
      linarith
    have h6 : p.delta ≤ a.delta * (3 / 2) := by rw [div_le_iff₀ h] at h3; linarith
    have h7 : (1 : ℚ) ≤ j := by exact_mod_cast hj
    rcases eq_or_lt_of_le hj with rfl | h8
    · exact le_rfl
    · have h9 : (2 : ℚ) ≤ j := by exact_mod_cast h8
      have h10 : a.delta * 2 ≤ a.delta * j := mul_le_mul_of_nonneg_left h9 h.le
      rw [abs_sub_comm p.delta (a.delta * j), abs_of_nonneg (show 0 ≤ a.delta * (j : ℚ) - p.delta by linarith)]
      rw [abs_le]
      push_cast
      constructor <;> linarith

/-- C93: the values saved by a process are those of the fields at the positions written in its files, and the positions of all the processes are
those of the probes inside the grid. -/
theorem C93_values {V : Type} (s : Setup) (hs : s.Ok) (b : Block) (chunks : List (List (ℚ × (ℕ × ℕ × ℕ → V)))) :
    ∃ gs : List (ℕ × ℕ × ℕ), (∀ g, g ∈ gs ↔ b.Has g ∧ ∃ c, s.probeAt c (s.position g)) ∧
      writeRank s b chunks = .ok (if gs = [] then none else
        some ⟨gs.map s.position, chunks.map fun ch => ch.map fun r => (r.1, gs.map r.2)⟩) := by
  refine ⟨gridProbes s b, fun g => ?_, writeRank_eq s hs b chunks⟩
  rw [mem_gridProbes']
  simp only [probeAt_iff s hs]

theorem mem_stride {A : Type} (d : ℕ) (l : List A) (x : A) : x ∈ stride d l ↔ ∃ k, l[k * d]? = some x := by
  unfold stride
  simp only [List.mem_map, List.mem_filter, decide_eq_true_eq, Prod.exists, List.mem_zipIdx_iff_getElem?]
  constructor
  · rintro ⟨y, i, ⟨h1, h2⟩, rfl⟩
    exact ⟨i / d, by rw [Nat.div_mul_cancel (Nat.dvd_of_mod_eq_zero h2)]; exact h1⟩
  · rintro ⟨k, h⟩
    exact ⟨x, k * d, ⟨h, Nat.mul_mod_left k d⟩, rfl⟩

theorem stride_sublist {A : Type} (d : ℕ) (l : List A) : (stride d l).Sublist l := by
  unfold stride
  have := (List.filter_sublist (l := l.zipIdx) (p := fun p => p.2 % d = 0)).map Prod.fst
  simpa using this

theorem saveTimes_eq {V : Type} (sh : ℕ × ℕ × ℕ) (oz oy ox : ℚ × ℚ) (ranks : List (Rank V)) (A : ℚ → Arr V) (ts : List ℚ)
    (hA : ∀ t ∈ ts, fromRanks sh oz oy ox t ranks (fun _ => none) = .ok (A t)) (hinc : ts.Pairwise (· < ·))
    (dir : Dir V) : ∃ dir', saveTimes sh oz oy ox ranks ts dir = .ok dir' ∧
      (∀ t ∈ ts, (∀ t' ∈ ts, t < t' → roundEven (1000 * t') ≠ roundEven (1000 * t)) → dir' (roundEven (1000 * t)) = some (A t)) ∧
      (∀ n, (∀ t ∈ ts, n ≠ roundEven (1000 * t)) → dir' n = dir n) := by
  induction ts generalizing dir with
  | nil => exact ⟨dir, rfl, by simp, fun _ _ => rfl⟩
  | cons t ts ih =>
    rw [List.pairwise_cons] at hinc
    obtain ⟨dir', h1, h2, h3⟩ := ih (fun t ht => hA t (by simp [ht])) hinc.2 (Function.update dir (roundEven (1000 * t)) (some (A t)))
    refine ⟨dir', ?_, ?_, ?_⟩
    · rw [saveTimes, hA t (by simp)]; exact h1
    · intro t' ht' hlast
      rcases List.mem_cons.1 ht' with rfl | h
      · rw [h3 _ fun t'' h'' => (hlast t'' (by simp [h'']) (hinc.1 t'' h'')).symm, Function.update_self]
      · exact h2 t' h fun t'' h'' => hlast t'' (by simp [h''])
    · intro n hn
      rw [h3 n fun t' ht' => hn t' (by simp [ht']), Function.update_of_ne (hn t (by simp))]

/-- The ranks which have written files. -/
theorem ranks_eq {V : Type} (s : Setup) (hs : s.Ok) (runs : List (Block × List (List (ℚ × (ℕ × ℕ × ℕ → V))))) :
    runs.mapM (fun r => writeRank s r.1 r.2) = .ok (runs.map fun r => if gridProbes s r.1 = [] then none else some (rankOf s r.1 r.2)) :=
  mapM_ok _ _ _ fun r _ => writeRank_eq s hs r.1 r.2

theorem reduce_eq {V : Type} (s : Setup) (runs : List (Block × List (List (ℚ × (ℕ × ℕ × ℕ → V))))) :
    (runs.map fun r => if gridProbes s r.1 = [] then none else some (rankOf s r.1 r.2)).filterMap id
      = (runs.filter fun r => decide (gridProbes s r.1 ≠ [])).map fun r => rankOf s r.1 r.2 := by
  induction runs with
  | nil => rfl
  | cons r runs ih =>
    by_cases h : gridProbes s r.1 = []
    · rw [List.map_cons, List.filter_cons, if_pos h, List.filterMap_cons_none rfl, ih]
      simp [h]
    · rw [List.map_cons, List.filter_cons, if_neg h, List.filterMap_cons_some (f := id) rfl, ih]
      simp [h]

theorem wanted_of {V : Type} (s : Setup) (hs : s.Ok) (hist : List (ℚ × (ℕ × ℕ × ℕ → V)))
    (hinc' : (hist.map Prod.fst).Pairwise (· < ·)) (runs : List (Block × List (List (ℚ × (ℕ × ℕ × ℕ → V)))))
    (hshared : Shared s (runs.map Prod.fst)) (hruns : ∀ r ∈ runs, Divided hist r.2) (r : ℚ × (ℕ × ℕ × ℕ → V)) (hr : r ∈ hist) :
    ∃ a, fromRanks (shOf s) (oOf s.az s.pz) (oOf s.ay s.py) (oOf s.ax s.px) r.1
      ((runs.filter fun r => decide (gridProbes s r.1 ≠ [])).map fun r => rankOf s r.1 r.2)
      (fun _ => none) = .ok a ∧ s.Wanted r.2 a := by
  set runs' := runs.filter fun r => decide (gridProbes s r.1 ≠ []) with hruns'
  have hsub : ∀ r ∈ runs', Divided hist r.2 := fun r hr => hruns r (List.mem_filter.1 hr).1
  obtain ⟨a, h1, h3, h4⟩ := fromRanks_eq s hs hist hinc' r.1 r.2 hr runs' hsub (fun _ => none)
  refine ⟨a, h1, fun c g hg hp => ?_, fun c hc => ?_⟩
  · rw [probeAt_iff s hs] at hp
    obtain ⟨b, hb, hbg⟩ := hshared.cover g hg
    obtain ⟨r', hr', rfl⟩ := List.mem_map.1 hb
    have hm : g ∈ gridProbes s r'.1 := (mem_gridProbes' _ _ _).2 ⟨hbg, c, hp⟩
    refine h3 c g ⟨r', ?_, hm⟩ hp.2
    rw [hruns', List.mem_filter]
    refine ⟨hr', ?_⟩
    simp only [ne_eq, decide_eq_true_eq]
    intro h; rw [h] at hm; simp at hm
  · refine h4 c fun r' hr' g hg e => ?_
    obtain ⟨hbg, c', hc', e'⟩ := (mem_gridProbes' _ _ _).1 hg
    have : c = c' := gridOf_inj s (e.trans e'.symm)
    subst this
    refine hc g (hshared.inside _ (List.mem_map.2 ⟨r', (List.mem_filter.1 hr').1, rfl⟩) g hbg) ((probeAt_iff s hs c g).2 ⟨hc', e'⟩)

/-- **C93.** Whatever the division of the grid between the processes and of the saved states into files (which can differ between the
processes), `save_data_as_phys_fields` writes one file for each saved time (each `d`-th one), with the array of the values of the field of this time
at the positions of the probes; the cells of the probes which are outside of the grid are not written. When times have the same name (rounded to a
thousandth) the file has the last one. The saved times increase, there are at least two probes in each direction and at least one inside the
grid, and a selected time is positive. -/
theorem C93_arrays_partial {V : Type} (s : Setup) (hs : s.Ok) (hist : List (ℚ × (ℕ × ℕ × ℕ → V)))
    (hinc : (hist.map Prod.fst).Pairwise (· < ·)) (runs : List (Block × List (List (ℚ × (ℕ × ℕ × ℕ → V)))))
    (hshared : Shared s (runs.map Prod.fst)) (hruns : ∀ r ∈ runs, Divided hist r.2) (d : ℕ) (hd : 0 < d)
    (hpos : ∃ (k : ℕ) (r : ℚ × (ℕ × ℕ × ℕ → V)), hist[k * d]? = some r ∧ 0 < r.1)
    (h2 : 2 ≤ (seq s.az s.pz).length ∧ 2 ≤ (seq s.ay s.py).length ∧ 2 ≤ (seq s.ax s.px).length)
    (hin : ∃ c g, s.Has g ∧ s.probeAt c (s.position g)) :
    ∃ opts, runs.mapM (fun r => writeRank s r.1 r.2) = .ok opts ∧ ∃ dir, saveAsFields s (opts.filterMap id) d = .ok dir ∧
      (∀ (k : ℕ) (t : ℚ) (u : ℕ × ℕ × ℕ → V), hist[k * d]? = some (t, u) →
        (∀ (k' : ℕ) (r : ℚ × (ℕ × ℕ × ℕ → V)), hist[k' * d]? = some r → t < r.1 → roundEven (1000 * r.1) ≠ roundEven (1000 * t)) →
        ∃ a, dir (roundEven (1000 * t)) = some a ∧ s.Wanted u a) ∧
      (∀ n a, dir n = some a → ∃ (k : ℕ) (t : ℚ) (u : ℕ × ℕ × ℕ → V), hist[k * d]? = some (t, u) ∧ n = roundEven (1000 * t)) := by
  refine ⟨_, ranks_eq s hs runs, ?_⟩
  rw [reduce_eq]
  set runs' := runs.filter fun r => decide (gridProbes s r.1 ≠ []) with hruns'
  have hsub : ∀ r ∈ runs', Divided hist r.2 := fun r hr => hruns r (List.mem_filter.1 hr).1
  -- one probe
  obtain ⟨c0, g0, hg0, hp0⟩ := hin
  obtain ⟨b0, hb0, hb0g⟩ := hshared.cover g0 hg0
  obtain ⟨r0, hr0, rfl⟩ := List.mem_map.1 hb0
  have hr0' : r0 ∈ runs' := by
    rw [hruns', List.mem_filter]
    refine ⟨hr0, ?_⟩
    have : g0 ∈ gridProbes s r0.1 := (mem_gridProbes' _ _ _).2 ⟨hb0g, c0, (probeAt_iff s hs c0 g0).1 hp0⟩
    simp only [ne_eq, decide_eq_true_eq]
    intro h; rw [h] at this; simp at this
  obtain ⟨q, rest, hq⟩ : ∃ q rest, runs' = q :: rest := by
    cases h : runs' with
    | nil => rw [h] at hr0'; simp at hr0'
    | cons q rest => exact ⟨q, rest, rfl⟩
  -- the times
  have htimes : (rankOf s q.1 q.2).files.flatMap (fun f => f.map Prod.fst) = hist.map Prod.fst := by
    have hq' := (hsub q (by rw [hq]; simp)).1
    rw [← hq']
    simp only [rankOf, List.flatMap_map, List.map_map, Function.comp_def]
    rw [List.map_flatten, List.flatMap_def]
  have harr := wanted_of s hs hist hinc runs hshared hruns
  have hfun : ∀ t ∈ hist.map Prod.fst, ∃ a, fromRanks (shOf s) (oOf s.az s.pz) (oOf s.ay s.py) (oOf s.ax s.px) t
      (runs'.map fun r => rankOf s r.1 r.2) (fun _ => none) = .ok a := by
    intro t ht
    obtain ⟨r, hr, rfl⟩ := List.mem_map.1 ht
    obtain ⟨a, ha, -⟩ := harr r hr
    exact ⟨a, ha⟩
  choose! A hA using hfun
  set ts := stride d (hist.map Prod.fst) with hts
  have hsubl : ts.Sublist (hist.map Prod.fst) := stride_sublist d _
  have hA' : ∀ t ∈ ts, fromRanks (shOf s) (oOf s.az s.pz) (oOf s.ay s.py) (oOf s.ax s.px) t
      (runs'.map fun r => rankOf s r.1 r.2) (fun _ => none) = .ok (A t) := fun t ht => hA t (hsubl.subset ht)
  have key := saveTimes_eq _ _ _ _ _ A ts hA' (hinc.sublist hsubl) (fun _ => none)
  obtain ⟨dir, hdir, hd1, hd2⟩ := key
  refine ⟨dir, ?_, ?_, ?_⟩
  · rw [seq_length, seq_length, seq_length] at h2
    rw [hq] at hdir ⊢
    rw [List.map_cons] at hdir ⊢
    unfold saveAsFields
    simp only [show d ≠ 0 by omega, if_false, htimes, ← hts]
    obtain ⟨k, r, hr, hr0⟩ := hpos
    have hmem : r.1 ∈ ts := (mem_stride d _ _).2 ⟨k, by rw [List.getElem?_map, hr]; rfl⟩
    obtain ⟨m, hm⟩ : ∃ m, ts.max? = some m := by
      cases h : ts.max? with
      | none => rw [List.max?_eq_none_iff] at h; rw [h] at hmem; simp at hmem
      | some m => exact ⟨m, rfl⟩
    have hmpos : 0 < m := lt_of_lt_of_le hr0 ((List.max?_eq_some_iff.1 hm).2 _ hmem)
    simp only [hm, hmpos.ne', if_false, not_lt.2 hmpos.le, origin_seq _ _ hs.2.2 h2.2.2, origin_seq _ _ hs.2.1 h2.2.1, origin_seq _ _ hs.1 h2.1]
    exact hdir
  · intro k t u hk hlast
    have hmem : (t, u) ∈ hist := List.mem_of_getElem? hk
    have ht : t ∈ ts := (mem_stride d _ _).2 ⟨k, by rw [List.getElem?_map, hk]; rfl⟩
    refine ⟨A t, hd1 t ht fun t' ht' hlt => ?_, ?_⟩
    · obtain ⟨k', hk'⟩ := (mem_stride d _ _).1 ht'
      rw [List.getElem?_map] at hk'
      cases hr : hist[k' * d]? with
      | none => rw [hr] at hk'; simp at hk'
      | some r =>
        rw [hr] at hk'
        simp at hk'
        subst hk'
        exact hlast k' r hr hlt
    obtain ⟨a, ha, hw⟩ := harr (t, u) hmem
    have := (hA t (List.mem_map.2 ⟨_, hmem, rfl⟩)).symm.trans ha
    rw [Except.ok.inj this]
    exact hw
  · intro n a hn
    by_contra hcon
    push Not at hcon
    rw [hd2 n fun t ht => ?_] at hn
    · cases hn
    · obtain ⟨k, hk⟩ := (mem_stride d _ _).1 ht
      rw [List.getElem?_map] at hk
      cases hr : hist[k * d]? with
      | none => rw [hr] at hk; simp at hk
      | some r =>
        rw [hr] at hk
        simp at hk
        subst hk
        exact hcon k r.1 r.2 hr

/-- C93: times which differ by more than a thousandth have different names, so that no file is overwritten. -/
theorem C93_names {t t' : ℚ} (h : t + 1 / 1000 < t') : roundEven (1000 * t') ≠ roundEven (1000 * t) := by
  intro e
  have n1 := abs_le.1 (roundEven_near (1000 * t))
  have n2 := abs_le.1 (roundEven_near (1000 * t'))
  rw [e] at n2
  linarith [n1.1, n1.2, n2.1, n2.2]

/-- C93, finding: with two saved times whose names are equal, only the second one is in the directory. -/
theorem C93_names_violated {V : Type} (s : Setup) (hs : s.Ok) (t t' : ℚ) (h : t < t') (hp : 0 < t') (hn : roundEven (1000 * t) = roundEven (1000 * t'))
    (u u' : ℕ × ℕ × ℕ → V) (runs : List (Block × List (List (ℚ × (ℕ × ℕ × ℕ → V))))) (hshared : Shared s (runs.map Prod.fst))
    (hruns : ∀ r ∈ runs, Divided [(t, u), (t', u')] r.2)
    (h2 : 2 ≤ (seq s.az s.pz).length ∧ 2 ≤ (seq s.ay s.py).length ∧ 2 ≤ (seq s.ax s.px).length)
    (hin : ∃ c g, s.Has g ∧ s.probeAt c (s.position g)) :
    ∃ opts, runs.mapM (fun r => writeRank s r.1 r.2) = .ok opts ∧ ∃ dir, saveAsFields s (opts.filterMap id) 1 = .ok dir ∧
      (∃ a, dir (roundEven (1000 * t')) = some a ∧ s.Wanted u' a) ∧ ∀ n a, dir n = some a → n = roundEven (1000 * t') := by
  obtain ⟨opts, ho, dir, hd, h1, h3⟩ := C93_arrays_partial s hs [(t, u), (t', u')] (by simpa using h) runs hshared hruns 1 one_pos
    ⟨1, (t', u'), rfl, hp⟩ h2 hin
  refine ⟨opts, ho, dir, hd, h1 1 t' u' rfl fun k r hr hlt => ?_, fun n a hn' => ?_⟩
  · rw [mul_one] at hr
    have := List.mem_of_getElem? hr
    simp only [List.mem_cons, List.not_mem_nil, or_false] at this
    rcases this with rfl | rfl
    · exact absurd hlt (not_lt.2 h.le)
    · exact absurd hlt (lt_irrefl _)
  · obtain ⟨k, t'', u'', hk, rfl⟩ := h3 n a hn'
    have := List.mem_of_getElem? hk
    simp only [List.mem_cons, List.not_mem_nil, or_false, Prod.mk.injEq] at this
    rcases this with ⟨rfl, -⟩ | ⟨rfl, -⟩
    · exact hn
    · rfl

/-- C93: when all the probes are inside the grid, all the cells of the arrays are written. -/
theorem C93_complete {V : Type} (s : Setup) (hs : s.Ok) (u : ℕ × ℕ × ℕ → V) (a : Arr V) (h : s.Wanted u a)
    (hz : ∀ x ∈ seq s.az s.pz, 0 ≤ x ∧ x < s.az.n * s.az.delta) (hy : ∀ x ∈ seq s.ay s.py, 0 ≤ x ∧ x < s.ay.n * s.ay.delta)
    (hx : ∀ x ∈ seq s.ax s.px, 0 ≤ x ∧ x < s.ax.n * s.ax.delta) (c : ℕ × ℕ × ℕ)
    (hc : c.1 < (seq s.az s.pz).length ∧ c.2.1 < (seq s.ay s.py).length ∧ c.2.2 < (seq s.ax s.px).length) :
    ∃ g, s.Has g ∧ s.probeAt c (s.position g) ∧ a c = some (u g) := by
  have one : ∀ (ax : Axis) (p : Par), 0 < ax.delta → (∀ x ∈ seq ax p, 0 ≤ x ∧ x < ax.n * ax.delta) → ∀ i < (seq ax p).length,
      ∃ g : ℕ, g < ax.n ∧ (seq ax p)[i]? = some (ax.delta * (g : ℚ)) := by
    intro ax p hd hx i hi
    rw [seq_length] at hi
    have hget := (seq_get_grid ax p hd i (k0 ax p + i * mult ax p)).2 ⟨hi, rfl⟩
    obtain ⟨h1, h2⟩ := hx _ (List.mem_of_getElem? hget)
    have h3 : (0 : ℚ) ≤ ((k0 ax p + i * mult ax p : ℤ) : ℚ) := by
      by_contra hneg
      have := mul_neg_of_pos_of_neg hd (not_le.1 hneg)
      linarith
    have h4 : 0 ≤ k0 ax p + i * mult ax p := by exact_mod_cast h3
    obtain ⟨g, hg⟩ := Int.eq_ofNat_of_zero_le h4
    rw [hg] at hget h2
    rw [mul_comm (ax.n : ℚ)] at h2
    have h5 := (mul_lt_mul_iff_right₀ hd).1 h2
    exact ⟨g, by exact_mod_cast h5, by simpa using hget⟩
  obtain ⟨gz, hgz, ez⟩ := one _ _ hs.1 hz _ hc.1
  obtain ⟨gy, hgy, ey⟩ := one _ _ hs.2.1 hy _ hc.2.1
  obtain ⟨gx, hgx, ex⟩ := one _ _ hs.2.2 hx _ hc.2.2
  have hp : s.probeAt c (s.position (gz, gy, gx)) := ⟨ez, ey, ex⟩
  exact ⟨(gz, gy, gx), ⟨hgz, hgy, hgx⟩, hp, h.1 c _ ⟨hgz, hgy, hgx⟩ hp⟩

/-- C93, finding: with the default region, and a distance between the probes which is a divisor of the size of the domain, the last probes are at the
end of the domain, which is not a point of the grid: the last cells of all the arrays are never written (they contain arbitrary numbers). -/
theorem C93_default_region_violated {V : Type} (s : Setup) (hs : s.Ok) (m q : ℕ) (hm : 0 < m) (hn : s.ax.n = q * m)
    (hp : s.px = defaultRegion s.ax (m * s.ax.delta)) (hbig : 1 / 10 ^ 15 ≤ m * s.ax.delta) (u : ℕ × ℕ × ℕ → V) (a : Arr V) (h : s.Wanted u a) :
    (seq s.ax s.px).length = q + 1 ∧ (seq s.ax s.px)[q]? = some (s.ax.n * s.ax.delta) ∧ ∀ cz cy, a (cz, cy, q) = none := by
  have hd := hs.2.2
  have hk : k0 s.ax s.px = 0 := by rw [k0, hp]; simp [defaultRegion, roundEven]
  have hmu : mult s.ax s.px = m := by
    rw [mult, hp]
    have : (defaultRegion s.ax (m * s.ax.delta)).delta / s.ax.delta = ((m : ℤ) : ℚ) := by
      have := hd.ne'
      simp only [defaultRegion]; field_simp; simp
    rw [this, roundEven_int]
    exact max_eq_right (by exact_mod_cast hm)
  have hmd : 0 < (m : ℚ) * s.ax.delta := by positivity
  have hnb : nb s.ax s.px = q + 1 := by
    unfold nb
    rw [spacing_eq _ _ hd, hmu]
    have hf : first s.ax s.px = 0 := by rw [first, ← k0, hk]; simp
    have hhi : s.px.hi = q * (m * s.ax.delta) := by rw [hp]; simp only [defaultRegion]; rw [hn]; push_cast; ring
    rw [hf, hhi]
    have : ⌈((q : ℚ) * (m * s.ax.delta) + 1 / 10 ^ 15 - 0) / (s.ax.delta * ((m : ℤ) : ℚ))⌉ = (q : ℤ) + 1 := by
      rw [Int.ceil_eq_iff]
      have e : s.ax.delta * ((m : ℤ) : ℚ) = m * s.ax.delta := by push_cast; ring
      rw [e]
      constructor
      · rw [lt_div_iff₀ hmd]; push_cast; linarith [show (0 : ℚ) < 1 / 10 ^ 15 by norm_num]
      · rw [div_le_iff₀ hmd]; push_cast; linarith
    rw [this]; omega
  have hget : (seq s.ax s.px)[q]? = some (s.ax.delta * ((s.ax.n : ℤ) : ℚ)) := by
    rw [seq_get_grid _ _ hd, hnb, hk, hmu, hn]; exact ⟨by omega, by push_cast; ring⟩
  refine ⟨by rw [seq_length, hnb], by rw [hget]; congr 1; push_cast; ring, fun cz cy => h.2 _ fun g hg hpa => ?_⟩
  have h1 := hpa.2.2
  simp only [Setup.position] at h1
  rw [hget] at h1
  have h2 := mul_left_cancel₀ hd.ne' (Option.some.inj h1)
  have h3 : s.ax.n = g.2.2 := by exact_mod_cast h2
  have := hg.2.2
  omega

/-- C93, finding: with only one probe in a direction (for example a plane of probes), no file is written. -/
theorem C93_one_probe_violated {V : Type} (s : Setup) (ranks : List (Rank V)) (d : ℕ)
    (h : (seq s.az s.pz).length = 1 ∨ (seq s.ay s.py).length = 1 ∨ (seq s.ax s.px).length = 1) : ∃ e, saveAsFields s ranks d = .error e := by
  have ho : ∀ l : List ℚ, l.length = 1 → origin l = .error .index := by
    intro l hl
    obtain ⟨x, rfl⟩ := List.length_eq_one_iff.1 hl
    rfl
  unfold saveAsFields
  cases ranks with
  | nil => exact ⟨_, rfl⟩
  | cons r rs =>
    simp only
    split
    · exact ⟨_, rfl⟩
    split
    · exact ⟨_, rfl⟩
    split
    · exact ⟨_, rfl⟩
    split
    · exact ⟨_, rfl⟩
    split
    · rename_i hx hy hz
      rcases h with h | h | h
      · rw [ho _ h] at hz; cases hz
      · rw [ho _ h] at hy; cases hy
      · rw [ho _ h] at hx; cases hx
    · exact ⟨_, rfl⟩
    · exact ⟨_, rfl⟩
    · exact ⟨_, rfl⟩

/-- C93, finding: when two successive states have been saved in a file with the same time (the times are saved in single precision), no file is
written. -/
theorem C93_equal_times_violated {V : Type} (s : Setup) (t : ℚ) (cs : List (ℚ × ℚ × ℚ)) (v v' : List V) (rs : List (Rank V)) :
    ∃ e, saveAsFields s (⟨cs, [[(t, v), (t, v')]]⟩ :: rs) 1 = .error e := by
  unfold saveAsFields
  have hts : stride 1 ([[(t, v), (t, v')]].flatMap fun f => f.map Prod.fst) = [t, t] := by simp [stride, Nat.mod_one]
  simp only [hts]
  split
  · exact ⟨_, rfl⟩
  split
  · exact ⟨_, rfl⟩
  split
  · exact ⟨_, rfl⟩
  split
  · exact ⟨_, rfl⟩
  split
  · refine ⟨.value, ?_⟩
    rw [saveTimes, fromRanks, fromRank]
    simp
  · exact ⟨_, rfl⟩
  · exact ⟨_, rfl⟩
  · exact ⟨_, rfl⟩

/-- C93, finding: when only the initial state (time 0) is selected, no file is written. -/
theorem C93_initial_violated {V : Type} (s : Setup) (cs : List (ℚ × ℚ × ℚ)) (v : List V) (rs : List (Rank V)) (d : ℕ) (hd : 0 < d) :
    saveAsFields s (⟨cs, [[(0, v)]]⟩ :: rs) d = .error .overflow := by
  have hts : stride d ([[((0 : ℚ), v)]].flatMap fun f => f.map Prod.fst) = [0] := by
    simp [stride]
  unfold saveAsFields
  simp only [hts, show d ≠ 0 by omega, if_false]
  simp

/-! A grid of 4 x 4 x 4 points with spacing 1, probes every two points between 0 and 3, and two processes. -/

def exAxis : Axis := ⟨4, 1⟩
def exPar : Par := ⟨9 / 4, 0, 3⟩
def exSetup : Setup := ⟨exAxis, exAxis, exAxis, exPar, exPar, exPar⟩
def exBlock1 : Block := ⟨⟨0, 1⟩, ⟨0, 4⟩, ⟨0, 4⟩⟩
def exBlock2 : Block := ⟨⟨1, 3⟩, ⟨0, 4⟩, ⟨0, 4⟩⟩

theorem exSeq : seq exAxis exPar = [0, 2] := by decide +kernel

/-- The hypotheses of the theorems are met. -/
example : exSetup.Ok ∧ Shared exSetup [exBlock1, exBlock2] ∧
    (2 ≤ (seq exSetup.az exSetup.pz).length ∧ 2 ≤ (seq exSetup.ay exSetup.py).length ∧ 2 ≤ (seq exSetup.ax exSetup.px).length) ∧
    (∃ c g, exSetup.Has g ∧ exSetup.probeAt c (exSetup.position g)) ∧ (∀ x ∈ seq exAxis exPar, 0 ≤ x ∧ x < exAxis.n * exAxis.delta) ∧
    Divided [((0 : ℚ), fun _ => (5 : ℤ)), (1, fun g => (g.1 : ℤ))] [[((0 : ℚ), fun _ => (5 : ℤ))], [(1, fun g => (g.1 : ℤ))]] := by
  refine ⟨by norm_num [Setup.Ok, exSetup, exAxis], ⟨?_, ?_⟩, ?_, ?_, ?_, ?_⟩
  · intro b hb g hg
    simp only [List.mem_cons, List.not_mem_nil, or_false] at hb
    rcases hb with rfl | rfl <;> simp only [Block.Has, exBlock1, exBlock2, Setup.Has, exSetup, exAxis] at * <;> omega
  · intro g hg
    simp only [Setup.Has, exSetup, exAxis] at hg
    by_cases h : g.1 < 1
    · exact ⟨exBlock1, by simp, by simp only [Block.Has, exBlock1]; omega⟩
    · exact ⟨exBlock2, by simp, by simp only [Block.Has, exBlock2]; omega⟩
  · simp [exSetup, exSeq]
  · exact ⟨(0, 1, 1), (0, 2, 2), by simp [Setup.Has, exSetup, exAxis], by
      simp only [Setup.probeAt, exSetup, exSeq, Setup.position]
      simp [exAxis]⟩
  · rw [exSeq]; simp [exAxis]; norm_num
  · simp [Divided]

end Verif.Probes
