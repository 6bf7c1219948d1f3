import Verif.Sw1lBudget.PropsViolated
import Verif.Galerkin.PropsSw1lMod

/-! # C74: the groups of interactions and the transfer of enstrophy -/

set_option linter.unusedSectionVars false

namespace Verif.Sw1lBudget

open Verif.Fourier Verif.Energy Verif.Forcing Verif.Sw1l Verif.Spectra2d Verif.SpectBudget Verif.Galerkin
  Finset

/-! ### Groups -/

section groups

variable {V : Type*} [AddCommMonoid V]

theorem groupLoop_ok {g : List (String × List String)} :
    ∀ (l d : List (String × V)), (∀ e ∈ l, ∃ h ∈ g, e.1 ∈ h.2) →
      groupLoop g l d = .ok (d.map fun e =>
        (e.1, e.2 + ((l.filter fun x => groupOf g x.1 = some e.1).map (·.2)).sum))
  | [], d, _ => by simp [groupLoop]
  | x :: l, d, h => by
    obtain ⟨a, ha⟩ : ∃ a, groupOf g x.1 = some a := by
      obtain ⟨e, he, hx⟩ := h x (by simp)
      have : (g.find? fun e => e.2.contains x.1).isSome := by
        rw [List.find?_isSome]; exact ⟨e, he, by simpa using hx⟩
      obtain ⟨b, hb⟩ := Option.isSome_iff_exists.mp this
      exact ⟨b.1, by rw [groupOf, hb]; rfl⟩
    rw [groupLoop, ha]
    simp only
    rw [groupLoop_ok l _ fun e he => h e (by simp [he])]
    congr 1
    rw [addTo, List.map_map]
    refine List.map_congr_left fun e _ => ?_
    by_cases hea : e.1 = a
    · simp [hea, ha, add_assoc]
    · have : a ≠ e.1 := fun h => hea h.symm
      simp [hea, ha, this]

theorem groupLoop_error {g : List (String × List String)} (x : String × V) (l' : List (String × V)) :
    ∀ (l d : List (String × V)), (∀ e ∈ l, ∃ h ∈ g, e.1 ∈ h.2) → (∀ h ∈ g, x.1 ∉ h.2) →
      groupLoop g (l ++ x :: l') d = .error (.key x.1)
  | [], d, _, hx => by
    have : groupOf g x.1 = none := by
      rw [groupOf, Option.map_eq_none_iff, List.find?_eq_none]
      intro e he; simpa using hx e he
    simp [groupLoop, this]
  | y :: l, d, h, hx => by
    obtain ⟨a, ha⟩ : ∃ a, groupOf g y.1 = some a := by
      obtain ⟨e, he, hx⟩ := h y (by simp)
      have : (g.find? fun e => e.2.contains y.1).isSome := by
        rw [List.find?_isSome]; exact ⟨e, he, by simpa using hx⟩
      obtain ⟨b, hb⟩ := Option.isSome_iff_exists.mp this
      exact ⟨b.1, by rw [groupOf, hb]; rfl⟩
    rw [List.cons_append, groupLoop, ha]
    exact groupLoop_error x l' l _ (fun e he => h e (by simp [he])) hx

/-- C74: for every table of groups and every list of labelled products, the products whose label is in no group are
refused with the first such label; otherwise there is one result per group, in the order of the table, and it is the
sum of the products whose label is in this group and in none of the previous ones. -/
theorem C74_group_matrix (g : List (String × List String)) (hg : (g.map (·.1)).Nodup) (l : List (String × V)) :
    ((∀ e ∈ l, ∃ h ∈ g, e.1 ∈ h.2) → ∃ d, groupMatrix g l = .ok d ∧ d.map (·.1) = g.map (·.1) ∧
      ∀ i (hi : i < d.length), ∀ hi' : i < g.length,
        d[i].2 = ((l.filter fun x => decide (x.1 ∈ g[i].2 ∧ ∀ h ∈ g.take i, x.1 ∉ h.2)).map (·.2)).sum) ∧
    (∀ l₁ x l₂, l = l₁ ++ x :: l₂ → (∀ e ∈ l₁, ∃ h ∈ g, e.1 ∈ h.2) → (∀ h ∈ g, x.1 ∉ h.2) →
      groupMatrix g l = .error (.key x.1)) := by
  refine ⟨fun h => ⟨_, groupLoop_ok l _ h, by simp [Function.comp_def], ?_⟩, ?_⟩
  · intro i hi hi'
    simp only [List.getElem_map, zero_add]
    congr 2
    refine List.filter_congr fun x _ => ?_
    simp only [decide_eq_decide]
    rw [groupOf, Option.map_eq_some_iff]
    constructor
    · rintro ⟨e, he, hei⟩
      obtain ⟨hp, as, bs, hab, hbs⟩ := List.find?_eq_some_iff_append.mp he
      have hlen : as.length = i := by
        have h1 : (g.map (·.1))[as.length]'(by rw [hab]; simp) = (g.map (·.1))[i]'(by simpa using hi') := by
          simp only [List.getElem_map]
          rw [← hei]
          congr 1
          simp only [hab]
          rw [List.getElem_append_right (le_refl _)]; simp
        exact (List.Nodup.getElem_inj_iff hg).mp h1
      have hge : g[i] = e := by
        subst hlen
        simp only [hab]
        rw [List.getElem_append_right (le_refl _)]; simp
      refine ⟨by rw [hge]; simpa using hp, fun h hh => ?_⟩
      have : g.take i = as := by rw [hab, ← hlen]; simp
      rw [this] at hh
      simpa using hbs h hh
    · rintro ⟨h1, h2⟩
      refine ⟨g[i], List.find?_eq_some_iff_append.mpr ⟨by simpa using h1, g.take i, g.drop (i + 1), ?_, ?_⟩, rfl⟩
      · rw [List.cons_getElem_drop_succ, List.take_append_drop]
      · intro a ha; simpa using h2 a ha
  · rintro l₁ x l₂ rfl h1 h2
    exact groupLoop_error x l₂ l₁ _ h1 h2

example : groupMatrix dyadGroup [("GG", 1), ("GX", (2 : ℕ)), ("AA", 3)] = .error (.key "GX") :=
  (C74_group_matrix dyadGroup (by decide) _).2 [("GG", 1)] ("GX", 2) [("AA", 3)] rfl (by decide) (by decide)

/-- C74: the tables of the groups of two and of three modes have each word over the letters of the modes exactly once:
a word is in the group of its numbers of geostrophic modes `G` and waves `A`, `a` (two waves and one geostrophic
mode: `GAAs` if the waves have the same sign, else `GAAd`). -/
theorem C74_group_tables :
    (triadGroup.flatMap (·.2)).Nodup ∧ (dyadGroup.flatMap (·.2)).Nodup ∧
    ∀ w : Fin 3 × Fin 3 × Fin 3,
      let s := letter w.1 ++ letter w.2.1 ++ letter w.2.2
      let count := fun i => [w.1, w.2.1, w.2.2].count i
      groupOf triadGroup s = some
        (if count 0 = 3 then "GGG" else if count 0 = 2 then "AGG"
          else if count 0 = 1 then (if count 1 = 1 then "GAAd" else "GAAs") else "AAA") ∧
      groupOf dyadGroup (letter w.1 ++ letter w.2.1) = some
        (if w.1 = 0 ∧ w.2.1 = 0 then "GG" else if w.1 = 0 then letter w.2.1 ++ "G"
          else if w.2.1 = 0 then letter w.1 ++ "G" else "AA") := by
  refine ⟨by decide +kernel, by decide +kernel, ?_⟩
  decide +kernel

end groups

/-! ### Transfer of enstrophy -/

noncomputable section

variable {p : Par} {n : Fin 2 → ℕ} {S : Finset Mode}

/-- The geostrophic mode has a streamfunction, proportional to its height. -/
theorem geo_stream (h : p.Ok) (u : Mode → UEta) : ∃ ψ : Fld (Fin 2),
    (∀ k, normalMode p u (.var .ux) 0 k = -(Complex.I * p.ky k * ψ k)) ∧
    (∀ k, normalMode p u (.var .uy) 0 k = Complex.I * p.kx k * ψ k) ∧
    (∀ k, normalMode p u (.var .eta) 0 k = p.f / p.c2 * ψ k) := by
  refine ⟨fun k => if k = 0 then 0 else
    (p.c2 ^ (0.5 : ℝ) : ℝ) * bvecOf p u .ux k 0 / sigma p k, fun k => ?_, fun k => ?_, fun k => ?_⟩ <;>
    by_cases hk : k = 0
  any_goals
    subst hk
    simp [normalMode, modeOf, qmat]
  all_goals
    have hk2 := h.k2_pos hk
    have hc := h.2
    obtain ⟨hσ, -⟩ := sigma_sq h hk
    have hS : ((√(2 : ℝ) : ℝ) : ℂ) ≠ 0 := by exact_mod_cast (Real.sqrt_pos.mpr two_pos).ne'
    have hC : ((√p.c2 : ℝ) : ℂ) ≠ 0 := by exact_mod_cast (Real.sqrt_pos.mpr hc).ne'
    have hC2 : ((√p.c2 : ℝ) : ℂ) ^ 2 = p.c2 := by exact_mod_cast Real.sq_sqrt hc.le
    have hK : ((√(p.k2 k) : ℝ) : ℂ) ≠ 0 := by exact_mod_cast (Real.sqrt_pos.mpr hk2).ne'
    have hG : (sigma p k : ℂ) ≠ 0 := by exact_mod_cast hσ.ne'
    simp only [normalMode, modeOf, qmat, Var.row, if_neg hk, sqrt_rpow, h.k2not0 hk, reduceCtorEq, if_false, if_true,
      bvecOf, Matrix.of_apply, Matrix.cons_val', Matrix.cons_val_zero, Matrix.cons_val_one, Matrix.cons_val]
    push_cast
    try rw [← hC2]
    field_simp

/-- C74: the transfer of enstrophy saved by the budget of sw1l (`k²` times the energy transfer between geostrophic
modes) is, for every state and every kept mode, the rate of change of the enstrophy of the geostrophic mode by its own
advection of its vorticity. -/
theorem C74_enstrophy (h : p.Ok) (hn : ∀ d, 0 < n d) (hS : NoAlias n S) (u : Mode → UEta) {k : Mode} (hk : k ∈ S) :
    ∃ d GGG, tq p n S u (sw1lTerms p.c2) = .ok d ∧ d.lookup "GGG" = some GGG ∧
      let X := normalMode p u (.var .ux) 0
      let Y := normalMode p u (.var .uy) 0
      let rot : Fld (Fin 2) := fun k => pd p.δ 0 Y k - pd p.δ 1 X k
      tens p GGG k = -((starRingEnd ℂ) (rot k) * advect S p.δ ![X, Y] rot k).re := by
  refine ⟨_, _, tq_ok p n S u _, rfl, ?_⟩
  intro X Y rot
  obtain ⟨ψ, hX, hY, hE⟩ := geo_stream h u
  set E := normalMode p u (.var .eta) 0 with hE'
  have hdiv : ∀ q, pd p.δ 0 X q + pd p.δ 1 Y q = 0 := fun q => by
    simp only [pd, X, Y, hX, hY, Par.kx, Par.ky]; ring
  have hdiv' : normalMode p u .div 0 = fun _ => 0 := funext hdiv
  have zero_right : ∀ a : Fld (Fin 2), exactProduct S a (fun _ => 0) k = 0 := fun a => by
    simp [exactProduct]
  have hP : ∀ a b, prod n S a b k = exactProduct S a b k := fun a b => prod_exact hn hS a b hk
  -- the height is advected along its contours
  have e0 : pd p.δ 0 E = fun q => p.f / p.c2 * Y q := funext fun q => by
    simp only [pd, E, Y, hE, hY, Par.kx]; ring
  have e1 : pd p.δ 1 E = fun q => -(p.f / p.c2) * X q := funext fun q => by
    simp only [pd, E, X, hE, hX, Par.ky]; ring
  have hflux := flux_advect p.δ X Y E (S := S) (fun q _ => hdiv q) k
  simp only [advect, Fin.sum_univ_two, Matrix.cons_val_zero, Matrix.cons_val_one, e0, e1, exact_mul_right] at hflux
  rw [exact_comm S Y X, exact_comm S X E, exact_comm S Y E] at hflux
  -- the curl of the advection
  have hd1 : pd p.δ 1 Y = fun q => (-1) * pd p.δ 0 X q := funext fun q => by
    linear_combination hdiv q
  have l1 := exact_leibniz S p.δ 0 X (pd p.δ 0 Y) k
  have l2 := exact_leibniz S p.δ 0 Y (pd p.δ 1 Y) k
  have l3 := exact_leibniz S p.δ 1 X (pd p.δ 0 X) k
  have l4 := exact_leibniz S p.δ 1 Y (pd p.δ 1 X) k
  have c1 : exactProduct S (pd p.δ 0 Y) (pd p.δ 1 Y) k = -exactProduct S (pd p.δ 0 X) (pd p.δ 0 Y) k := by
    rw [hd1, exact_mul_right, exact_comm]; ring
  have c2 : exactProduct S (pd p.δ 1 Y) (pd p.δ 1 X) k = -exactProduct S (pd p.δ 1 X) (pd p.δ 0 X) k := by
    rw [exact_comm, hd1, exact_mul_right]; ring
  have hrot : ∀ d, pd p.δ d rot = fun q => pd p.δ d (pd p.δ 0 Y) q - pd p.δ d (pd p.δ 1 X) q := fun d =>
    funext fun q => by simp only [pd, rot]; ring
  have hcomm : ∀ (a : Fld (Fin 2)), pd p.δ 0 (pd p.δ 1 a) = pd p.δ 1 (pd p.δ 0 a) := fun a =>
    funext fun q => by simp only [pd]; ring
  have hcurl : advect S p.δ ![X, Y] rot k
      = Complex.I * ((p.δ 0 * k 0 : ℝ) : ℂ) * advect S p.δ ![X, Y] Y k
        - Complex.I * ((p.δ 1 * k 1 : ℝ) : ℂ) * advect S p.δ ![X, Y] X k := by
    simp only [advect, Fin.sum_univ_two, Matrix.cons_val_zero, Matrix.cons_val_one, hrot, exact_sub_right, hcomm]
    rw [hcomm Y] at l2
    linear_combination -l1 - l2 + l3 + l4 - c1 + c2
  have hrk : rot k = -(((p.kx k : ℂ) ^ 2 + (p.ky k : ℂ) ^ 2) * ψ k) := by
    simp only [rot, pd, X, Y, hX, hY, Par.kx, Par.ky]
    push_cast
    linear_combination ((p.δ 0 * k 0) ^ 2 + (p.δ 1 * k 1) ^ 2) * ψ k * Complex.I_sq
  have hval : ∀ a b c : Key, valueOf (tri n S (normalMode p u a) (normalMode p u b) (normalMode p u c)) "GGG" k
      = (starRingEnd ℂ) (normalMode p u a 0 k) * exactProduct S (normalMode p u b 0) (normalMode p u c 0) k := by
    intro a b c
    rw [← hP]
    simp [valueOf, tri]
  have px : ∀ v, normalMode p u (.px v) 0 = pd p.δ 0 (normalMode p u (.var v) 0) := fun v => rfl
  have py : ∀ v, normalMode p u (.py v) 0 = pd p.δ 1 (normalMode p u (.var v) 0) := fun v => rfl
  simp only [tens, sw1lTerms, List.map_cons, List.map_nil, List.sum_cons, List.sum_nil, hval, hdiv', px, py,
    zero_right, map_zero, zero_mul, mul_zero]
  simp only [← hE', show normalMode p u (.var .ux) 0 = X from rfl, show normalMode p u (.var .uy) 0 = Y from rfl]
  have hA : ∀ a : Fld (Fin 2), advect S p.δ ![X, Y] a k
      = exactProduct S X (pd p.δ 0 a) k + exactProduct S Y (pd p.δ 1 a) k := fun a => by
    simp only [advect, Fin.sum_univ_two, Matrix.cons_val_zero, Matrix.cons_val_one]
  rw [hcurl, hA, hA, hrk]
  have hpe : ∀ d, pd p.δ d E k = Complex.I * ((p.δ d * k d : ℝ) : ℂ) * E k := fun d => rfl
  rw [hpe, hpe, show X k = _ from hX k, show Y k = _ from hY k]
  have hk2 : (p.k2 k : ℝ) = p.kx k ^ 2 + p.ky k ^ 2 := by simp [Par.k2]
  rw [hk2]
  simp only [show p.δ 0 * k 0 = p.kx k from rfl, show p.δ 1 * k 1 = p.ky k from rfl] at hflux ⊢
  generalize exactProduct S X (pd p.δ 0 X) k = a1
  generalize exactProduct S Y (pd p.δ 1 X) k = a2
  generalize exactProduct S X (pd p.δ 0 Y) k = a3
  generalize exactProduct S Y (pd p.δ 1 Y) k = a4
  generalize exactProduct S X Y k = a5 at hflux
  generalize exactProduct S E X k = a6 at hflux ⊢
  generalize exactProduct S E Y k = a7 at hflux ⊢
  generalize E k = e
  generalize ψ k = s
  have f1 := congrArg Complex.re hflux
  have f2 := congrArg Complex.im hflux
  generalize p.kx k = x at *
  generalize p.ky k = y at *
  simp only [Complex.add_re, Complex.sub_re, Complex.mul_re, Complex.neg_re, Complex.add_im, Complex.sub_im,
    Complex.mul_im, Complex.neg_im, Complex.conj_re, Complex.conj_im, Complex.I_re, Complex.I_im,
    Complex.ofReal_re, Complex.ofReal_im, map_add, map_mul, map_neg, Complex.zero_re, pow_two] at f1 f2 ⊢
  norm_num at f1 f2 ⊢
  linear_combination (x * x + y * y) * p.c2 / 2 * (-e.im * f2 - e.re * f1)

example : ∃ d GGG, tq unit eight line wave (sw1lTerms unit.c2) = .ok d ∧ d.lookup "GGG" = some GGG ∧
    tens unit GGG ![1, 0] = -((starRingEnd ℂ) (pd unit.δ 0 (normalMode unit wave (.var .uy) 0) ![1, 0]
        - pd unit.δ 1 (normalMode unit wave (.var .ux) 0) ![1, 0])
      * advect line unit.δ ![normalMode unit wave (.var .ux) 0, normalMode unit wave (.var .uy) 0]
        (fun k => pd unit.δ 0 (normalMode unit wave (.var .uy) 0) k
          - pd unit.δ 1 (normalMode unit wave (.var .ux) 0) k) ![1, 0]).re :=
  C74_enstrophy unit_ok (fun _ => by norm_num [eight]) line_noAlias wave (by simp [line])

end

end Verif.Sw1lBudget
