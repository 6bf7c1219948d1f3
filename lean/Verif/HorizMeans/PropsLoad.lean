import Verif.HorizMeans.Props

/-! # C103: the averages in time of the horizontal means -/

namespace Verif.HorizMeans

open Verif.Fourier Finset

set_option linter.unusedSectionVars false

noncomputable section

variable {n : Fin 3 → ℕ}

/-! ## Specification -/

/-- `i` is the index of the first record whose time is the nearest of `t`. -/
structure IsNearest (times : List ℝ) (t : ℝ) (i : ℕ) : Prop where
  lt : i < times.length
  le : ∀ j < times.length, |times.getD i 0 - t| ≤ |times.getD j 0 - t|
  first : ∀ j < i, |times.getD i 0 - t| < |times.getD j 0 - t|

/-- The records `imin, imin + 1, …, imax`. -/
def window {α : Type} (l : List α) (imin imax : ℕ) : List α := (l.take (imax + 1)).drop imin

/-- The index of the first record: the one asked for or the first of the file. -/
def FirstIndex (times : List ℝ) (t : Option ℝ) (i : ℕ) : Prop :=
  match t with
  | none => i = 0
  | some t => IsNearest times t i

/-- The index of the last record. -/
def LastIndex (times : List ℝ) (t : Option ℝ) (i : ℕ) : Prop :=
  match t with
  | none => i + 1 = times.length
  | some t => IsNearest times t i

/-- The average of a quantity over some records, at a level; `nan` without record. -/
def average (rs : List (Record n)) (q : Record n → Fin (n 2) → ℝ) : Option (Fin (n 2) → ℝ) :=
  if rs = [] then none else some fun c => (rs.map fun r => q r c).sum / rs.length

/-- The covariance of two fields over a level. -/
def cov (f g : Pt n → ℝ) (c : Fin (n 2)) : ℝ :=
  levelMean n (fun j => f j * g j) c - levelMean n f c * levelMean n g c

/-! ## Lemmas -/

theorem range_getElem_lt {m : ℕ} {f : ℕ → ℝ} {i : ℕ} (h : (List.range m).argmin f = some i) :
    ∀ j < i, f i < f j := by
  intro j hj
  have hi : i < m := List.mem_range.1 (List.argmin_mem h)
  have hjm : j ∈ List.range m := List.mem_range.2 (by omega)
  have h1 := List.le_of_mem_argmin hjm h
  rcases lt_or_eq_of_le h1 with h2 | h2
  · exact h2
  · exfalso
    have := List.index_of_argmin h hjm (le_of_eq h2.symm)
    have e : ∀ k < m, (List.range m).idxOf k = k := by
      intro k hk
      have := List.Nodup.idxOf_getElem List.nodup_range k (by simpa using hk : k < (List.range m).length)
      rwa [List.getElem_range] at this
    rw [e i hi, e j (by omega)] at this
    omega

theorem nearest_spec {times : List ℝ} (h : times ≠ []) (t : ℝ) :
    ∃ i, nearest times t = some i ∧ IsNearest times t i := by
  have hne : List.range times.length ≠ [] := by simpa using h
  obtain ⟨i, hi⟩ : ∃ i, nearest times t = some i := by
    rw [← Option.isSome_iff_exists, Option.isSome_iff_ne_none]
    intro hc
    rw [nearest, List.argmin_eq_none] at hc
    exact hne hc
  refine ⟨i, hi, ⟨List.mem_range.1 (List.argmin_mem hi), ?_, ?_⟩⟩
  · intro j hj
    exact List.le_of_mem_argmin (f := fun i => |times.getD i 0 - t|) (List.mem_range.2 hj) hi
  · exact range_getElem_lt hi

theorem timeMean_eq (rs : List (Record n)) (q : Record n → Fin (n 2) → ℝ) :
    timeMean (rs.map q) = average rs q := by
  unfold timeMean average
  by_cases h : rs = []
  · simp [h]
  · simp [h, Function.comp_def]

theorem window_map {α β : Type} (l : List α) (f : α → β) (i j : ℕ) :
    ((l.map f).take (j + 1)).drop i = (window l i j).map f := by
  rw [window, List.map_drop, List.map_take]

theorem cov_eq (h0 : 0 < n 0) (h1 : 0 < n 1) (f g : Pt n → ℝ) : stress n f g = cov f g := by
  funext c
  rw [stress_eq h0 h1, hmean_eq, hmean_eq, hmean_eq]
  rfl

/-- All the names start with a `v`. -/
theorem names_v : ∀ key ∈ ["vx", "vy", "vz", "vxp_vxp", "vyp_vyp", "vzp_vzp", "vyp_vxp", "vzp_vxp", "vzp_vyp"],
    key.startsWith "v" = true := by
  decide +kernel

theorem dsets_eq (h0 : 0 < n 0) (h1 : 0 < n 1) (Lz : ℝ) (rs : List (Record n)) :
    (fileOf n Lz rs).dsets =
      [("vx", rs.map fun r => levelMean n r.vx), ("vy", rs.map fun r => levelMean n r.vy),
       ("vz", rs.map fun r => levelMean n r.vz), ("vxp_vxp", rs.map fun r => cov r.vx r.vx),
       ("vyp_vyp", rs.map fun r => cov r.vy r.vy), ("vzp_vzp", rs.map fun r => cov r.vz r.vz),
       ("vyp_vxp", rs.map fun r => cov r.vy r.vx), ("vzp_vxp", rs.map fun r => cov r.vz r.vx),
       ("vzp_vyp", rs.map fun r => cov r.vz r.vy)] := by
  simp [fileOf, compute, List.lookup, cov_eq h0 h1, hmean_eq]

/-! ## Theorems -/

/-- **C103** (loading) For a file with at least one record, `load` gives the heights of the levels and,
for each of the nine names, the average over the records from the first one to the last one of the
profiles; the first and the last records are the ones of the file, or the ones nearest of `tmin` and
`tmax`. -/
theorem C103_load (h0 : 0 < n 0) (h1 : 0 < n 1) (Lz : ℝ) (rs : List (Record n)) (hrs : rs ≠ [])
    (tmin tmax : Option ℝ) :
    ∃ imin imax, FirstIndex (rs.map fun r => r.time) tmin imin ∧
      LastIndex (rs.map fun r => r.time) tmax imax ∧
      load (fileOf n Lz rs) tmin tmax = some (fun i : Fin (n 2) => ((i : ℕ) : ℝ) * (Lz / (n 2 : ℕ)),
        let avg := average (window rs imin imax)
        [("vx", avg fun r => levelMean n r.vx), ("vy", avg fun r => levelMean n r.vy),
         ("vz", avg fun r => levelMean n r.vz), ("vxp_vxp", avg fun r => cov r.vx r.vx),
         ("vyp_vyp", avg fun r => cov r.vy r.vy), ("vzp_vzp", avg fun r => cov r.vz r.vz),
         ("vyp_vxp", avg fun r => cov r.vy r.vx), ("vzp_vxp", avg fun r => cov r.vz r.vx),
         ("vzp_vyp", avg fun r => cov r.vz r.vy)]) := by
  have ht : (fileOf n Lz rs).times = rs.map fun r => r.time := rfl
  have hne : (rs.map fun r => r.time) ≠ [] := by simpa using hrs
  have hmin : ∃ i, FirstIndex (rs.map fun r => r.time) tmin i ∧
      firstIndex (fileOf n Lz rs).times tmin = some i := by
    cases tmin with
    | none => exact ⟨0, rfl, by simp only [ht, firstIndex, lastIndex, if_neg hne]⟩
    | some t =>
      obtain ⟨i, hi, hs⟩ := nearest_spec hne t
      exact ⟨i, hs, hi⟩
  have hmax : ∃ i, LastIndex (rs.map fun r => r.time) tmax i ∧
      lastIndex (fileOf n Lz rs).times tmax = some i := by
    cases tmax with
    | none =>
      refine ⟨(rs.map fun r => r.time).length - 1, ?_, by simp only [ht, firstIndex, lastIndex, if_neg hne]⟩
      have : 0 < (rs.map fun r => r.time).length := List.length_pos_iff.2 hne
      show _ - 1 + 1 = _
      omega
    | some t =>
      obtain ⟨i, hi, hs⟩ := nearest_spec hne t
      exact ⟨i, hs, hi⟩
  obtain ⟨imin, a1, a2⟩ := hmin
  obtain ⟨imax, b1, b2⟩ := hmax
  refine ⟨imin, imax, a1, b1, ?_⟩
  unfold load
  simp only [a2, b2]
  have hz : (fileOf n Lz rs).z = fun i : Fin (n 2) => ((i : ℕ) : ℝ) * (Lz / (n 2 : ℕ)) := by
    funext i
    show Lz / (n 2 : ℕ) * _ = _
    ring
  rw [hz, dsets_eq h0 h1, List.filter_eq_self.2]
  · simp only [List.map_cons, List.map_nil, window_map, timeMean_eq]
  · intro d hd
    refine names_v d.1 ?_
    simp only [List.mem_cons, List.not_mem_nil, or_false] at hd ⊢
    rcases hd with rfl | rfl | rfl | rfl | rfl | rfl | rfl | rfl | rfl <;> simp

/-- **C103** (figure) The figure is drawn for every file with a record: the mean profiles on the left, the
variances and then the covariances on the right, as functions of the height. -/
theorem C103_plot (h0 : 0 < n 0) (h1 : 0 < n 1) (Lz : ℝ) (rs : List (Record n)) (hrs : rs ≠ [])
    (tmin tmax : Option ℝ) :
    ∃ imin imax, FirstIndex (rs.map fun r => r.time) tmin imin ∧
      LastIndex (rs.map fun r => r.time) tmax imax ∧
      plot (fileOf n Lz rs) tmin tmax = some (fun i : Fin (n 2) => ((i : ℕ) : ℝ) * (Lz / (n 2 : ℕ)),
        let avg := average (window rs imin imax)
        ([avg fun r => levelMean n r.vx, avg fun r => levelMean n r.vy, avg fun r => levelMean n r.vz],
         [avg fun r => cov r.vx r.vx, avg fun r => cov r.vy r.vy, avg fun r => cov r.vz r.vz,
          avg fun r => cov r.vy r.vx, avg fun r => cov r.vz r.vx, avg fun r => cov r.vz r.vy])) := by
  obtain ⟨imin, imax, a, b, h⟩ := C103_load h0 h1 Lz rs hrs tmin tmax
  refine ⟨imin, imax, a, b, ?_⟩
  unfold plot
  rw [h]
  simp [List.lookup]

/-- **C103** (loading) Without limits, all the records are used; with the times of two records of a run
as limits, the records between them. -/
theorem C103_window (rs : List (Record n)) (hrs : rs.Pairwise fun a b => a.time < b.time) (i j : ℕ)
    (hi : i < rs.length) (hj : j < rs.length) (imin imax : ℕ)
    (h1 : FirstIndex (rs.map fun r => r.time) (some (rs[i].time)) imin)
    (h2 : LastIndex (rs.map fun r => r.time) (some (rs[j].time)) imax) :
    (imin = i ∧ imax = j) ∧ window rs 0 (rs.length - 1) = rs := by
  have key : ∀ (i : ℕ) (hi : i < rs.length) (m : ℕ),
      IsNearest (rs.map fun r => r.time) rs[i].time m → m = i := by
    intro i hi m hm
    have hml : m < rs.length := by simpa using hm.lt
    have e : ∀ k (hk : k < rs.length), (rs.map fun r => r.time).getD k 0 = rs[k].time := by
      intro k hk
      simp [List.getD_eq_getElem?_getD, hk]
    have := hm.le i (by simpa using hi)
    rw [e i hi, e m hml, sub_self, abs_zero, abs_nonpos_iff, sub_eq_zero] at this
    have hp := List.pairwise_iff_getElem.1 hrs
    rcases lt_trichotomy m i with h | h | h
    · exact absurd this (hp m i hml hi h).ne
    · exact h
    · exact absurd this (hp i m hi hml h).ne'
  refine ⟨⟨key i hi _ h1, key j hj _ h2⟩, ?_⟩
  rw [window, List.drop_zero, List.take_of_length_le (by omega)]

theorem sum_mul_dev (l : List (ℝ × ℝ × ℝ)) (U W : ℝ) :
    (l.map fun t => (t.1 - W) * (t.2.1 - U)).sum = (l.map fun t => t.1 * t.2.1).sum
      - W * (l.map fun t => t.2.1).sum - U * (l.map fun t => t.1).sum + l.length * (W * U) := by
  induction l with
  | nil => simp
  | cons a l ih =>
    simp only [List.map_cons, List.sum_cons, ih, List.length_cons]
    push_cast
    ring

/-- **C103** (averages) The covariance over the level and the records, around the loaded means, is the
loaded covariance plus the covariance in time of the mean profiles. -/
theorem C103_total_covariance (rs : List (Record n)) (hrs : rs ≠ []) (f g : Record n → Pt n → ℝ)
    (F G C : Fin (n 2) → ℝ) (hF : average rs (fun r => levelMean n (f r)) = some F)
    (hG : average rs (fun r => levelMean n (g r)) = some G)
    (hC : average rs (fun r => cov (f r) (g r)) = some C) (c : Fin (n 2)) :
    (rs.map fun r => levelMean n (fun j => f r j * g r j) c).sum / rs.length - F c * G c =
      C c + (rs.map fun r => (levelMean n (f r) c - F c) * (levelMean n (g r) c - G c)).sum / rs.length := by
  have hl : (rs.length : ℝ) ≠ 0 := by
    rw [Nat.cast_ne_zero]
    exact (List.length_pos_iff.2 hrs).ne'
  simp only [average, if_neg hrs, Option.some.injEq] at hF hG hC
  have eF : (rs.map fun r => levelMean n (f r) c).sum = rs.length * F c := by
    rw [← hF]; field_simp
  have eG : (rs.map fun r => levelMean n (g r) c).sum = rs.length * G c := by
    rw [← hG]; field_simp
  have eC : (rs.map fun r => cov (f r) (g r) c).sum = rs.length * C c := by
    rw [← hC]; field_simp
  have d := sum_mul_dev (rs.map fun r => (levelMean n (f r) c, levelMean n (g r) c, 0)) (G c) (F c)
  simp only [List.map_map, Function.comp_def, List.length_map] at d
  have eS : (rs.map fun r => cov (f r) (g r) c).sum =
      (rs.map fun r => levelMean n (fun j => f r j * g r j) c).sum
        - (rs.map fun r => levelMean n (f r) c * levelMean n (g r) c).sum := by
    clear hF hG hC eF eG eC d hl hrs
    induction rs with
    | nil => simp
    | cons r rs ih =>
      simp only [List.map_cons, List.sum_cons, ih]
      rw [cov]
      ring
  rw [d, eF, eG]
  rw [eC] at eS
  field_simp
  linarith

/-- A record of a uniform flow. -/
def uniform (t u : ℝ) : Record fun _ => 2 := ⟨t, fun _ => u, fun _ => 0, fun _ => 0⟩

theorem levelMean_const (u : ℝ) (c : Fin 2) : levelMean (fun _ : Fin 3 => 2) (fun _ => u) c = u := by
  rw [← hmean_eq]
  exact hmean_const (n := fun _ => 2) (by norm_num) (by norm_num) (fun _ => u) c

/-- **C103** (finding) Reading: the loaded covariances are the ones of the deviations from the loaded mean
profiles.  For a uniform flow which oscillates between 1 and -1, the loaded mean profile is zero and the
loaded variance is zero, but the mean of `vx²` is one. -/
theorem C103_covariance_violated :
    let rs := [uniform 0 1, uniform 1 (-1)]
    average rs (fun r => levelMean _ r.vx) = some (fun _ => 0) ∧
    average rs (fun r => cov r.vx r.vx) = some (fun _ => 0) ∧
    average rs (fun r => levelMean _ fun j => r.vx j * r.vx j) = some (fun _ => 1) := by
  have hu : ∀ u : ℝ, levelMean (fun _ : Fin 3 => 2) (fun _ => u) = fun _ => u := fun u =>
    funext fun c => levelMean_const u c
  have hc : ∀ (u : ℝ) (c : Fin ((fun _ : Fin 3 => 2) 2)),
      cov (n := fun _ : Fin 3 => 2) (fun _ => u) (fun _ => u) c = 0 := by
    intro u c
    simp only [cov, hu]
    ring
  refine ⟨?_, ?_, ?_⟩
  · simp [average, uniform, hu]
  · simp [average, uniform, hc]
  · simp [average, uniform, hu]

/-- **C103** (finding) Reading: only records between `tmin` and `tmax` are used.  With the records 0 and
10, `tmin = 4` gives an average which includes the record 0. -/
theorem C103_tmin_violated :
    nearest [0, 10] 4 = some 0 := by
  have : |(0 : ℝ) - 4| < |(10 : ℝ) - 4| := by norm_num
  obtain ⟨i, hi, hs⟩ := nearest_spec (times := [(0 : ℝ), 10]) (by simp) 4
  have hlt := hs.lt
  simp only [List.length_cons, List.length_nil] at hlt
  have hle := hs.le 0 (by simp)
  rcases (show i = 0 ∨ i = 1 by omega) with rfl | rfl
  · exact hi
  · exfalso
    simp at hle
    norm_num at hle

/-- **C103** (finding) Reading: the arguments `tmin` and `tmax` can be given in any order, or a wrong
order is refused.  When the last record is before the first one, all the profiles are `nan`. -/
theorem C103_order_violated (rs : List (Record n)) (imin imax : ℕ) (h : imax < imin)
    (q : Record n → Fin (n 2) → ℝ) : average (window rs imin imax) q = none := by
  have : window rs imin imax = [] := by
    rw [window, List.drop_eq_nil_iff, List.length_take]
    omega
  rw [this, average, if_pos rfl]

/-- **C103** (finding) Reading: a file without record can be loaded.  It cannot. -/
theorem C103_empty_violated (Lz : ℝ) (tmin tmax : Option ℝ) : load (fileOf n Lz []) tmin tmax = none := by
  cases tmin <;> cases tmax <;> rfl

/-- Two records of a run. -/
example : ∃ l r, plot (fileOf (fun _ => 2) 3 [uniform 0 1, uniform 1 5]) none none
    = some (fun i : Fin 2 => ((i : ℕ) : ℝ) * (3 / (2 : ℕ)), l, r) ∧ l.head? = some (some fun _ => 3) := by
  obtain ⟨imin, imax, a, b, h⟩ := C103_plot (n := fun _ => 2) (by norm_num) (by norm_num) 3
    [uniform 0 1, uniform 1 5] (by simp) none none
  have hu : ∀ u : ℝ, levelMean (fun _ : Fin 3 => 2) (fun _ => u) = fun _ => u := fun u =>
    funext fun c => levelMean_const u c
  cases a
  have : imax = 1 := by
    have : imax + 1 = 2 := b
    omega
  subst this
  refine ⟨_, _, h, ?_⟩
  simp [average, window, uniform, hu]
  norm_num

end

end Verif.HorizMeans
