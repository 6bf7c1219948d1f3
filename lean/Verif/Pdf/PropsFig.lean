import Verif.Pdf.ModelFig
import Verif.Pdf.Spec
import Verif.SpecFigs.Lemmas

/-! # C67: property theorems on the figure of the probability density functions -/

namespace Verif.Pdf

open Verif.PhysFiles (closest closest_spec)
open Verif.Increm (npRound)
open Verif.SpecFigs (meanStep indices mem_indices indices_sorted)

noncomputable section

/-- **C67**: the points of a curve of the figure are the values of the density at the middles of
its bins: the middle is in the bin, the middles are equidistant, and the sum of the values times
the distance of the middles is one when the density is normalised. -/
theorem C67_figure_curve {n : ℕ} (lo hi : ℝ) (h : lo < hi) (p : Fin n → ℝ) (hp : Normalised lo hi p) :
    let c := figCurve (p, lo, hi)
    (∀ i, (c i).2 = p i ∧ InBin n lo hi i (c i).1 ∧
      (c i).1 - lo - (hi - lo) / n * i = lo + (hi - lo) / n * (i + 1) - (c i).1) ∧
    (∀ i j : Fin n, (j : ℕ) = i + 1 → (c j).1 - (c i).1 = (hi - lo) / n) ∧
    ∑ i, (c i).2 * ((hi - lo) / n) = 1 := by
  have hpos : ∀ i : Fin n, 0 < (hi - lo) / n := by
    intro i
    have : (0 : ℝ) < n := by exact_mod_cast i.pos
    exact div_pos (sub_pos.2 h) this
  refine ⟨fun i => ⟨rfl, ⟨?_, .inl ?_⟩, ?_⟩, fun i j e => ?_, hp⟩
  · have := hpos i; simp only [figCurve, edge]; push_cast; linarith
  · have := hpos i; simp only [figCurve, edge]; push_cast; linarith
  · simp only [figCurve, edge]; push_cast; ring
  · simp only [figCurve, edge, e]; push_cast; ring

example : Normalised (n := 2) (0 : ℝ) 4 ![1 / 4, 1 / 4] := by
  simp [Normalised, Fin.sum_univ_two]; norm_num

theorem meanStep_pos {times : List ℝ} (hinc : times.Pairwise (· < ·)) (h2 : 2 ≤ times.length) :
    0 < meanStep times := by
  have key : ∀ (l : List ℝ) (a b : ℝ), (a :: b :: l).Pairwise (· < ·) →
      0 < (List.zipWith (fun a b => b - a) (a :: b :: l) (b :: l)).sum := by
    intro l
    induction l with
    | nil => intro a b h; simpa using h
    | cons c l ih =>
      intro a b h
      have h1 := List.pairwise_cons.1 h
      have := ih b c h1.2
      have := h1.1 b (by simp)
      simp only [List.zipWith_cons_cons, List.sum_cons] at *
      linarith
  obtain ⟨a, b, l, rfl⟩ : ∃ a b l, times = a :: b :: l := by
    rcases times with _ | ⟨a, _ | ⟨b, l⟩⟩
    · simp at h2
    · simp at h2
    · exact ⟨a, b, l, rfl⟩
  refine div_pos (key l a b hinc) ?_
  simp
  positivity

theorem npRound_nonneg {x : ℝ} (h : 0 ≤ x) : 0 ≤ npRound x := by
  have := Int.floor_nonneg.2 h
  simp only [npRound]
  split_ifs <;> omega

/-- **C67**: with two records or more and `delta_t` positive or zero, the two panels show the same
records, in the order of the times: they are all between the record closest to `tmin` and the
record closest to `tmax`, the one closest to `tmin` is drawn, each panel shows its own densities,
and with `delta_t = 0` all the records between the two are drawn. -/
theorem C67_figure_partial {n : ℕ} (f : PdfFile n) (hinc : f.times.Pairwise (· < ·))
    (h2 : 2 ≤ f.times.length) (he : f.eta.length = f.times.length) (hu : f.u.length = f.times.length)
    (tmin tmax dt : ℝ) (hdt : 0 ≤ dt) (hle : closest f.times tmin ≤ closest f.times tmax) :
    ∃ a b its, figure f tmin tmax dt = some (a, b) ∧ a.map Prod.fst = its ∧ b.map Prod.fst = its ∧
      its.Pairwise (· < ·) ∧ closest f.times tmin ∈ its ∧
      (∀ i ∈ its, closest f.times tmin ≤ i ∧ i ≤ closest f.times tmax) ∧
      (dt = 0 → ∀ i, closest f.times tmin ≤ i → i ≤ closest f.times tmax → i ∈ its) ∧
      (∀ x ∈ a, ∃ r, f.eta[x.1]? = some r ∧ x.2 = figCurve r) ∧
      (∀ x ∈ b, ∃ r, f.u[x.1]? = some r ∧ x.2 = figCurve r) := by
  have hpos := meanStep_pos hinc h2
  have hne : f.times ≠ [] := by rintro e; rw [e] at h2; simp at h2
  obtain ⟨x, hx, _⟩ := closest_spec f.times tmax hne
  have hlt : closest f.times tmax < f.times.length := (List.getElem?_eq_some_iff.1 hx).1
  obtain ⟨di, hd, h0, hz⟩ : ∃ di : ℤ, figStep f.times dt = some di ∧ 0 < di ∧ (dt = 0 → di = 1) := by
    refine ⟨if npRound (dt / meanStep f.times) = 0 then 1 else npRound (dt / meanStep f.times),
      by simp only [figStep, if_pos (show 1 < f.times.length by omega), if_neg hpos.ne'], ?_, ?_⟩
    · have := npRound_nonneg (div_nonneg hdt hpos.le)
      split_ifs with h <;> omega
    · rintro rfl
      rw [zero_div, if_pos (by simp [npRound])]
  set its := indices (closest f.times tmin) (closest f.times tmax) di.toNat with hits
  have hm : ∀ i ∈ its, i < f.times.length := fun i hi => lt_of_le_of_lt (mem_indices.1 hi).2.1 hlt
  have hfst : ∀ (recs : List ((Fin n → ℝ) × ℝ × ℝ)), recs.length = f.times.length →
      ∀ l : List ℕ, (∀ i ∈ l, i < f.times.length) →
      (l.filterMap fun i => (recs[i]?).map fun r => (i, figCurve r)).map Prod.fst = l := by
    intro recs hr l
    induction l with
    | nil => intro _; rfl
    | cons i l ih =>
      intro h
      obtain ⟨r, hi⟩ : ∃ r, recs[i]? = some r :=
        ⟨_, List.getElem?_eq_getElem (hr ▸ h i (by simp))⟩
      rw [List.filterMap_cons, hi]
      simp only [Option.map_some, List.map_cons]
      rw [ih fun j hj => h j (by simp [hj])]
  have hval : ∀ (recs : List ((Fin n → ℝ) × ℝ × ℝ)) (l : List ℕ),
      ∀ x ∈ l.filterMap fun i => (recs[i]?).map fun r => (i, figCurve r),
      ∃ r, recs[x.1]? = some r ∧ x.2 = figCurve r := by
    intro recs l x hx
    obtain ⟨i, _, h⟩ := List.mem_filterMap.1 hx
    obtain ⟨r, hr, rfl⟩ := Option.map_eq_some_iff.1 h
    exact ⟨r, hr, rfl⟩
  refine ⟨_, _, its, by simp only [figure, hd, if_neg hne, if_pos h0]; rfl, hfst _ he _ hm,
    hfst _ hu _ hm, indices_sorted _ _ _, mem_indices.2 ⟨le_rfl, hle, by simp⟩,
    fun i hi => ⟨(mem_indices.1 hi).1, (mem_indices.1 hi).2.1⟩, fun e i h1 h2 => ?_, hval _ _, hval _ _⟩
  exact mem_indices.2 ⟨h1, h2, by rw [hz e]; simp [Nat.mod_one]⟩

/-- A file with three records. -/
def threeRecords : PdfFile 2 where
  times := [0, 1, 2]
  eta := [(![1 / 4, 1 / 4], 0, 4), (![1 / 2, 1 / 2], 0, 2), (![1, 1], 0, 1)]
  u := [(![1 / 4, 1 / 4], 0, 4), (![1 / 2, 1 / 2], 0, 2), (![1, 1], 0, 1)]

example : ∃ a b, figure threeRecords 0 2 0 = some (a, b) := by
  obtain ⟨a, b, _, h, _⟩ := C67_figure_partial threeRecords (by simp [threeRecords]) (by simp [threeRecords])
    (by simp [threeRecords]) (by simp [threeRecords]) 0 2 0 le_rfl (by
      have h0 : closest threeRecords.times 0 = 0 := by
        obtain ⟨x, hx, h1, h2⟩ := closest_spec threeRecords.times 0 (by simp [threeRecords])
        by_contra hne
        have := h2 0 0 (by omega) (by simp [threeRecords])
        simp at this
        exact absurd this (not_lt.2 (abs_nonneg _))
      omega)
  exact ⟨a, b, h⟩

/-- **C67 (violated)**: with one record, `plot(delta_t=0)` raises although there is a curve to
draw (with any other `delta_t` it is drawn). -/
theorem C67_figure_one_record_violated {n : ℕ} (f : PdfFile n) (h1 : f.times.length = 1) (tmin tmax : ℝ) :
    figure f tmin tmax 0 = none ∧ ∀ dt ≠ 0, figure f tmin tmax dt ≠ none := by
  have hne : f.times ≠ [] := by rintro e; rw [e] at h1; simp at h1
  constructor
  · simp [figure, figStep, h1]
  · intro dt hd
    simp [figure, figStep, h1, hd, hne]

/-- **C67 (violated)**: the figure drawn during the simulation puts the values at the left edges of
the bins: it is shifted by half a bin with respect to the figure drawn afterwards. -/
theorem C67_online_figure_violated {n : ℕ} (lo hi : ℝ) (h : lo < hi) (p : Fin n → ℝ) (i : Fin n) :
    (onlineCurve (p, lo, hi) i).1 = (figCurve (p, lo, hi) i).1 - (hi - lo) / n / 2 ∧
      (onlineCurve (p, lo, hi) i).1 ≠ (figCurve (p, lo, hi) i).1 := by
  have e : (onlineCurve (p, lo, hi) i).1 = (figCurve (p, lo, hi) i).1 - (hi - lo) / n / 2 := by
    simp only [onlineCurve, figCurve, edge]; push_cast; ring
  refine ⟨e, ?_⟩
  have hn : (0 : ℝ) < n := by exact_mod_cast i.pos
  have := div_pos (sub_pos.2 h) hn
  rw [e]
  intro h'
  linarith

end

end Verif.Pdf
