import Verif.EndToEnd.LemmasLocal
import Verif.EndToEnd.Props
import Verif.Burgers.Props

/-!
# C87: ns2d.bouss, burgers1d, sw1l, sw1l.modified and sw1l.exactlin
-/

set_option linter.unusedSectionVars false

namespace Verif.EndToEnd

open Verif.Fourier Verif.Vectors Verif.Energy Verif.Galerkin Verif.Schemes Verif.Convergence Finset

noncomputable section

/-! ### ns2d.bouss -/

theorem tendBouss_eq {n : Fin 2 → ℕ} (hn : ∀ d, 0 < n d) {S : Finset (Fin 2 → ℤ)} (hD : Distinct n S) (δ : Fin 2 → ℝ) :
    tendBouss n S δ = tendStrat n S δ 0 := by
  funext u v k
  have e1 : ∀ x : Pt n → ℂ, ∀ k ∈ S, fftCoef n (fun j => x j + gridVal n S (deriv δ 0 (u 1)) j) k = fftCoef n x k + deriv δ 0 (u 1) k := by
    intro x k hk
    rw [fft_add]
    congr 1
    exact fft_grid hn hD (deriv δ 0 (u 1)) hk
  by_cases hv : v = 0 <;> by_cases hk : k ∈ S
  · simp only [tendBouss, tendStrat, hv, if_true, ns2dBouss, ns2dStrat, hk]
    exact e1 _ k hk
  · simp [tendBouss, tendStrat, hv, ns2dBouss, ns2dStrat, hk]
  · simp [tendBouss, tendStrat, hv, ns2dBouss, ns2dStrat, hk]
  · simp [tendBouss, tendStrat, hv, ns2dBouss, ns2dStrat, hk]

/-- C87, ns2d.bouss: for every real initial vorticity and buoyancy, every duration and all forces and viscosities, the truncated
documented equations have one and only one solution and the simulations converge to it. -/
theorem C87_ns2d_bouss {n : Fin 2 → ℕ} (hn : ∀ d, 0 < n d) {S : Finset (Fin 2 → ℤ)} (hS : NoAlias n S) {δ : Fin 2 → ℝ}
    (hδ : ∀ d, δ d ≠ 0) {nu : Dissip.Nu} (hnu : Nu.Ok nu) {F H : Fld (Fin 2)} (hF : RealField S F) (hH : RealField S H)
    {rot0 b0 : Fld (Fin 2)} (h0 : RealField S rot0) (hb0 : RealField S b0) {T : ℝ} (hT : 0 ≤ T) :
    ∃ rot b : ℝ → Fld (Fin 2), rot 0 = rot0 ∧ b 0 = b0 ∧ FlowBouss S δ nu F H T rot b ∧
      (∀ rot' b', rot' 0 = rot0 → b' 0 = b0 → FlowBouss S δ nu F H T rot' b' → ∀ t ∈ Set.Icc 0 T, rot' t = rot t ∧ b' t = b t) ∧
      SimulationsConverge S δ nu (forced ![F, H] (tendBouss n S δ)) T fun t => ![rot t, b t] := by
  have hz : ∀ (a b c x : ℂ), -a - ((0 : ℝ) : ℂ) ^ 2 * x - b + c = -a - b + c := fun a b c x => by norm_num
  obtain ⟨rot, b, e1, e2, hf, hu, hc⟩ := C87_ns2d_strat hn hS hδ 0 hnu hF hH h0 hb0 hT
  rw [tendBouss_eq hn hS.distinct]
  refine ⟨rot, b, e1, e2, ⟨hf.real, fun t ht ux uy hv k hk => ?_⟩, fun rot' b' h0' hb0' hf' => hu rot' b' h0' hb0' ⟨hf'.real, ?_⟩, hc⟩
  · have := hf.eq t ht ux uy hv k hk
    simp only [hz] at this
    exact this
  · intro t ht ux uy hv k hk
    have := hf'.eq t ht ux uy hv k hk
    simp only [hz]
    exact this

/-! ### burgers1d -/

theorem burgers_kept {nx : ℕ} (hn : 1 < nx) {S : Finset (Unit → ℤ)} (h3 : ∀ k ∈ S, 3 * |k ()| < nx) {k : Unit → ℤ} (hk : k ∈ S) :
    Burgers.kept nx S k := by
  refine ⟨hk, fun h => ?_⟩
  have := h3 k hk
  have := abs_nonneg (k ())
  push_cast at h
  omega

theorem burgers_noAlias {nx : ℕ} {S : Finset (Unit → ℤ)} (h3 : ∀ k ∈ S, 3 * |k ()| < nx) : NoAlias (fun _ : Unit => nx) S :=
  noAlias_of_small _ _ fun k hk _ => h3 k hk

theorem tendBurgers_eq {nx : ℕ} (hn : 1 < nx) {S : Finset (Unit → ℤ)} (h3 : ∀ k ∈ S, 3 * |k ()| < nx) (δ : ℝ) :
    tendBurgers true nx S δ = tendBurgers false nx S δ := by
  funext u v k
  simp only [tendBurgers, if_true, Bool.false_eq_true, if_false]
  by_cases hk : k ∈ S
  · obtain ⟨a, b⟩ := C57_burgers (by omega) (burgers_noAlias h3) δ (u ()) (burgers_kept hn h3 hk)
    rw [a, b]
  · have : ¬ Burgers.kept nx S k := fun h => hk h.1
    simp [Burgers.skewSym, Burgers.convective, this]

theorem smooth_burgers (nx : ℕ) (S : Finset (Unit → ℤ)) (δ : ℝ) (G : Finset (Unit → ℤ)) (m : ℕ) (v : Unit) (k : Unit → ℤ) :
    ContDiff ℝ m fun a : Arr (Unit × G) => tendBurgers false nx S δ (fields G a) v k := by
  have hf := cd_fields (V := Unit) G m ()
  have h1 := cd_grid hf (fun _ => nx) S
  have h2 := cd_grid (cd_deriv hf (fun _ => δ) ()) (fun _ => nx) S
  by_cases hk : Burgers.kept nx S k
  · simp only [tendBurgers, Bool.false_eq_true, if_false, Burgers.convective, hk, if_true, Burgers.px_deriv]
    exact cd_fft (fun j => (h1 j).neg.mul (h2 j)) k
  · simp only [tendBurgers, Bool.false_eq_true, if_false, Burgers.convective, hk]
    exact contDiff_const

theorem burgers_real {nx : ℕ} (hn : 1 < nx) {S : Finset (Unit → ℤ)} (h3 : ∀ k ∈ S, 3 * |k ()| < nx) (hS : Sym S) (δ : ℝ)
    {u : Unit → Fld Unit} (hu : realPart S u = u) : realPart S (tendBurgers false nx S δ u) = tendBurgers false nx S δ u := by
  rw [realPart_iff hS] at hu ⊢
  have h := hu.1 ()
  have hg := fun j => real_grid (n := fun _ => nx) h j
  have hd := fun j => real_grid (n := fun _ => nx) (h.deriv (fun _ => δ) ()) j
  refine ⟨fun _ => ?_, fun _ k hk => by
    have : ¬ Burgers.kept nx S k := fun h => hk h.1
    simp [tendBurgers, Burgers.convective, this]⟩
  refine real_congr (real_of_fft hS (n := fun _ => nx) (x := fun j => -gridVal (fun _ => nx) S (u ()) j
    * gridVal (fun _ => nx) S (deriv (fun _ => δ) () (u ())) j) fun j => by rw [map_mul, map_neg, hg, hd])
    fun k hk => by
      have := burgers_kept hn h3 hk
      simp only [tendBurgers, Bool.false_eq_true, if_false, Burgers.convective, this, if_true, Burgers.px_deriv]

/-- C87, burgers1d (`skew` false) and burgers1d.skew_sym (`skew` true), with a truncation which removes the aliases: for every real
initial velocity, every duration and all forces and viscosities (zero too), the truncated Burgers equation has one and only one
solution and the simulations of both solvers converge to it. -/
theorem C87_burgers (skew : Bool) {nx : ℕ} (hn : 1 < nx) {S : Finset (Unit → ℤ)} (h3 : ∀ k ∈ S, 3 * |k ()| < nx) (δ : ℝ)
    {nu : Dissip.Nu} (hnu : Nu.Ok nu) {F : Fld Unit} (hF : RealField S F) {u0 : Fld Unit} (h0 : RealField S u0) {T : ℝ} (hT : 0 ≤ T) :
    ∃ u : ℝ → Fld Unit, u 0 = u0 ∧ FlowBurgers S δ nu F T u ∧
      (∀ u', u' 0 = u0 → FlowBurgers S δ nu F T u' → ∀ t ∈ Set.Icc 0 T, u' t = u t) ∧
      SimulationsConverge S (fun _ => δ) nu (forced (fun _ : Unit => F) (tendBurgers skew nx S δ)) T fun t _ => u t := by
  have hsk : tendBurgers skew nx S δ = tendBurgers false nx S δ := by
    cases skew
    · rfl
    · exact tendBurgers_eq hn h3 δ
  rw [hsk]
  have hsym : Sym S := fun k hk => (h0.1 k hk).1
  have hone : ∀ {a : Fld Unit}, RealField S a → realPart S (fun _ : Unit => a) = fun _ => a := fun {a} ha =>
    (realPart_iff hsym _).2 ⟨fun _ => ha.1, fun _ => ha.2⟩
  obtain ⟨u, hu0, hQ, hder, hconv⟩ := end_to_end_forced S (fun _ => δ) hnu (tend := tendBurgers false nx S δ) (smooth_burgers nx S δ)
    (realPart S) (realPart_out S) (realPart_idem hsym) (fun u hu => burgers_real hn h3 hsym δ hu)
    (fun u hu => realPart_fd hsym (fun _ => δ) nu hu) (w := fun _ _ => 1) (fun _ _ => one_pos) (c := 0) le_rfl
    (fun u hu => by
      have := (Burgers.C51_conserved_partial hn δ (((realPart_iff hsym u).1 hu).1 ()) h3).2
      simp only [rate] at this
      simp only [Finset.univ_unique, Finset.sum_singleton, one_mul, zero_mul]
      exact this.le)
    (F := fun _ => F) (hone hF) (u0 := fun _ => u0) (hone h0) hT
  have hfor : ∀ (a : Unit → Fld Unit), ∀ k ∈ S, forced (fun _ : Unit => F) (tendBurgers false nx S δ) a () k
        - dissipation (fun _ => δ) nu (a ()) k
      = -advect S (fun _ => δ) (fun _ => a ()) (a ()) k - dissipation (fun _ => δ) nu (a ()) k + F k := by
    intro a k hk
    have := (C57_burgers (by omega) (burgers_noAlias h3) δ (a ()) (burgers_kept hn h3 hk)).1
    simp only [forced, tendBurgers, Bool.false_eq_true, if_false, this]
    ring
  have hu : u = fun t _ => u t () := rfl
  refine ⟨fun t => u t (), congrFun hu0 (), ⟨?_, ?_⟩, ?_, hu ▸ hconv⟩
  · intro t ht
    have := (realPart_iff hsym _).1 (hQ t ht)
    exact ⟨this.1 (), this.2 ()⟩
  · intro t ht k hk
    exact (hder t ht () k).congr_deriv (hfor (u t) k hk)
  · intro u' h0' hflow t ht
    have := end_unique S (fun _ => δ) (smooth_forced (smooth_burgers nx S δ) fun _ => F) (nu := nu) (T := T) (u := fun t _ => u' t) (u' := u)
      (fun t ht _ k hk => (hflow.real t ht).2 k hk) (fun t ht v k hk => ((realPart_iff hsym _).1 (hQ t ht)).2 v k hk)
      (fun t ht _ k hk => (hflow.eq t ht k hk).congr_deriv (hfor (fun _ => u' t) k hk).symm)
      (fun t ht v k _ => hder t ht v k) (by simp only [hu0, h0']) t ht
    exact congrFun this ()

/-! ### Shallow water -/

section

variable {p : Sw1l.Par} {n : Fin 2 → ℕ} {S : Finset (Fin 2 → ℤ)}

theorem cd_rotOf {E : Type*} [NormedAddCommGroup E] [NormedSpace ℝ E] {m : ℕ} {x y : E → ℂ} (hx : ContDiff ℝ m x) (hy : ContDiff ℝ m y)
    (k : Fin 2 → ℤ) : ContDiff ℝ m fun a => Sw1l.rotOf p k (x a) (y a) :=
  contDiff_const.mul ((contDiff_const.mul hy).sub (contDiff_const.mul hx))

theorem cd_divOf {E : Type*} [NormedAddCommGroup E] [NormedSpace ℝ E] {m : ℕ} {x y : E → ℂ} (hx : ContDiff ℝ m x) (hy : ContDiff ℝ m y)
    (k : Fin 2 → ℤ) : ContDiff ℝ m fun a => Sw1l.divOf p k (x a) (y a) :=
  contDiff_const.mul ((contDiff_const.mul hx).add (contDiff_const.mul hy))

theorem sw1l_out (u : Fin 3 → Fld (Fin 2)) (v : Fin 3) (k : Fin 2 → ℤ) (hk : k ∉ S) : tendSw1l p n S u v k = 0 := by
  fin_cases v <;> simp [tendSw1l, ofUEta, Sw1l.sw1l, Sw1l.trunc, hk]

theorem modified_out (u : Fin 3 → Fld (Fin 2)) (v : Fin 3) (k : Fin 2 → ℤ) (hk : k ∉ S) : tendModified p n S u v k = 0 := by
  fin_cases v <;> simp [tendModified, ofUEta, Sw1l.modified, Sw1l.trunc, hk]

theorem smooth_sw1l (p : Sw1l.Par) (n : Fin 2 → ℕ) (S G : Finset (Fin 2 → ℤ)) (m : ℕ) (v : Fin 3) (k : Fin 2 → ℤ) :
    ContDiff ℝ m fun a : Arr (Fin 3 × G) => tendSw1l p n S (fields G a) v k := by
  by_cases hk : k ∈ S
  swap
  · simp only [sw1l_out _ v k hk]
    exact contDiff_const
  have hf := fun v => cd_fields (V := Fin 3) G m v
  have hg := fun v => cd_grid (hf v) n S
  have hr := cd_grid (fun k => cd_rotOf (p := p) (hf 0 k) (hf 1 k) k) n S
  have hra : ∀ j, ContDiff ℝ m fun a : Arr (Fin 3 × G) =>
      (if p.f ≠ 0 then gridVal n S (fun k => Sw1l.rotOf p k (fields G a 0 k) (fields G a 1 k)) j + p.f
        else gridVal n S (fun k => Sw1l.rotOf p k (fields G a 0 k) (fields G a 1 k)) j) := by
    intro j
    by_cases h : p.f ≠ 0
    · simp only [if_pos h]
      exact (hr j).add contDiff_const
    · simp only [if_neg h]
      exact hr j
  have hpr : ContDiff ℝ m fun a : Arr (Fin 3 × G) => fftCoef n (fun j => p.c2 * gridVal n S (fields G a 2) j
      + 0.5 * (gridVal n S (fields G a 0) j ^ 2 + gridVal n S (fields G a 1) j ^ 2)) k :=
    cd_fft (fun j => (contDiff_const.mul (hg 2 j)).add (contDiff_const.mul (((hg 0 j).pow 2).add ((hg 1 j).pow 2)))) k
  fin_cases v <;> simp only [tendSw1l, ofUEta, Sw1l.sw1l, Sw1l.trunc, hk, if_true]
  · exact (cd_fft (fun j => (hra j).mul (hg 1 j)) k).sub (contDiff_const.mul hpr)
  · exact (cd_fft (fun j => (hra j).neg.mul (hg 0 j)) k).sub (contDiff_const.mul hpr)
  · exact (cd_divOf (cd_fft (fun j => ((hg 2 j).add contDiff_const).mul (hg 0 j)) k)
      (cd_fft (fun j => ((hg 2 j).add contDiff_const).mul (hg 1 j)) k) k).neg

theorem smooth_modified (p : Sw1l.Par) (n : Fin 2 → ℕ) (S G : Finset (Fin 2 → ℤ)) (m : ℕ) (v : Fin 3) (k : Fin 2 → ℤ) :
    ContDiff ℝ m fun a : Arr (Fin 3 × G) => tendModified p n S (fields G a) v k := by
  by_cases hk : k ∈ S
  swap
  · simp only [modified_out _ v k hk]
    exact contDiff_const
  have hf := fun v => cd_fields (V := Fin 3) G m v
  have hg := fun v => cd_grid (hf v) n S
  have hr := fun k => cd_rotOf (p := p) (hf 0 k) (hf 1 k) k
  have hx := cd_grid (cd_ux2 hr p.δ) n S
  have hy := cd_grid (cd_uy2 hr p.δ) n S
  have ha := fun v j => ((hx j).neg.mul (cd_grid (cd_deriv (hf v) p.δ 0) n S j)).sub ((hy j).mul (cd_grid (cd_deriv (hf v) p.δ 1) n S j))
  fin_cases v <;> simp only [tendModified, ofUEta, Sw1l.modified, Sw1l.trunc, hk, if_true]
  · exact (cd_fft (fun j => (contDiff_const.mul (hg 1 j)).add (ha 0 j)) k).sub (contDiff_const.mul (contDiff_const.mul (hf 2 k)))
  · exact (cd_fft (fun j => (contDiff_const.mul (hg 0 j)).add (ha 1 j)) k).sub (contDiff_const.mul (contDiff_const.mul (hf 2 k)))
  · exact (cd_fft (fun j => ha 2 j) k).sub (cd_divOf (hf 0 k) (hf 1 k) k)

theorem real_sub {D : Type*} {S : Finset (D → ℤ)} {a b : Fld D} (h : RealOn S a) (h' : RealOn S b) : RealOn S fun k => a k - b k :=
  fun k hk => ⟨(h k hk).1, by simp only [(h k hk).2, (h' k hk).2, map_sub]⟩

theorem real_neg {D : Type*} {S : Finset (D → ℤ)} {a : Fld D} (h : RealOn S a) : RealOn S fun k => -a k :=
  fun k hk => ⟨(h k hk).1, by simp only [(h k hk).2, map_neg]⟩

theorem real_rotOf {x y : Fld (Fin 2)} (hx : RealOn S x) (hy : RealOn S y) : RealOn S fun k => Sw1l.rotOf p k (x k) (y k) :=
  real_congr (real_sub (hy.deriv p.δ 0) (hx.deriv p.δ 1)) fun k _ => by
    simp only [Sw1l.rotOf, Energy.deriv, Sw1l.Par.kx, Sw1l.Par.ky]; ring

theorem real_divOf {x y : Fld (Fin 2)} (hx : RealOn S x) (hy : RealOn S y) : RealOn S fun k => Sw1l.divOf p k (x k) (y k) :=
  real_congr (real_add (hx.deriv p.δ 0) (hy.deriv p.δ 1)) fun k _ => by
    simp only [Sw1l.divOf, Energy.deriv, Sw1l.Par.kx, Sw1l.Par.ky]; ring

theorem sw1l_real (hS : Sym S) {u : Fin 3 → Fld (Fin 2)} (hu : realPart S u = u) :
    realPart S (tendSw1l p n S u) = tendSw1l p n S u := by
  rw [realPart_iff hS] at hu ⊢
  refine ⟨fun v => ?_, fun v k hk => sw1l_out u v k hk⟩
  have hg := fun v j => real_grid (n := n) (hu.1 v) j
  have hr := fun j => real_grid (n := n) (real_rotOf (p := p) (hu.1 0) (hu.1 1)) j
  have hra : ∀ j, (starRingEnd ℂ) (if p.f ≠ 0 then gridVal n S (fun k => Sw1l.rotOf p k (u 0 k) (u 1 k)) j + p.f
      else gridVal n S (fun k => Sw1l.rotOf p k (u 0 k) (u 1 k)) j)
      = if p.f ≠ 0 then gridVal n S (fun k => Sw1l.rotOf p k (u 0 k) (u 1 k)) j + p.f
        else gridVal n S (fun k => Sw1l.rotOf p k (u 0 k) (u 1 k)) j := by
    intro j
    split_ifs
    · rw [map_add, hr, Complex.conj_ofReal]
    · exact hr j
  have h05 : (starRingEnd ℂ) (0.5 : ℂ) = 0.5 := by
    have e : (0.5 : ℂ) = ((0.5 : ℝ) : ℂ) := by norm_num
    rw [e, Complex.conj_ofReal]
  have hpr : RealOn S fun k => fftCoef n (fun j => p.c2 * gridVal n S (u 2) j
      + 0.5 * (gridVal n S (u 0) j ^ 2 + gridVal n S (u 1) j ^ 2)) k :=
    real_of_fft hS fun j => by simp only [map_add, map_mul, map_pow, hg, Complex.conj_ofReal, h05]
  fin_cases v
  · refine real_congr (real_sub (real_of_fft hS (n := n) (x := fun j => (if p.f ≠ 0 then
      gridVal n S (fun k => Sw1l.rotOf p k (u 0 k) (u 1 k)) j + p.f
      else gridVal n S (fun k => Sw1l.rotOf p k (u 0 k) (u 1 k)) j) * gridVal n S (u 1) j) fun j => by rw [map_mul, hra, hg])
      (hpr.deriv p.δ 0)) fun k hk => ?_
    simp only [tendSw1l, ofUEta, Sw1l.sw1l, Sw1l.trunc, hk, if_true]
    rfl
  · refine real_congr (real_sub (real_of_fft hS (n := n) (x := fun j => -(if p.f ≠ 0 then
      gridVal n S (fun k => Sw1l.rotOf p k (u 0 k) (u 1 k)) j + p.f
      else gridVal n S (fun k => Sw1l.rotOf p k (u 0 k) (u 1 k)) j) * gridVal n S (u 0) j) fun j => by rw [map_mul, map_neg, hra, hg])
      (hpr.deriv p.δ 1)) fun k hk => ?_
    simp only [tendSw1l, ofUEta, Sw1l.sw1l, Sw1l.trunc, hk, if_true]
    rfl
  · refine real_congr (real_neg (real_divOf (p := p)
      (real_of_fft hS (n := n) (x := fun j => (gridVal n S (u 2) j + 1) * gridVal n S (u 0) j) fun j => by
        rw [map_mul, map_add, hg, hg, map_one])
      (real_of_fft hS (n := n) (x := fun j => (gridVal n S (u 2) j + 1) * gridVal n S (u 1) j) fun j => by
        rw [map_mul, map_add, hg, hg, map_one]))) fun k hk => ?_
    simp only [tendSw1l, ofUEta, Sw1l.sw1l, Sw1l.trunc, hk, if_true]
    rfl

theorem modified_real (hS : Sym S) {u : Fin 3 → Fld (Fin 2)} (hu : realPart S u = u) :
    realPart S (tendModified p n S u) = tendModified p n S u := by
  rw [realPart_iff hS] at hu ⊢
  refine ⟨fun v => ?_, fun v k hk => modified_out u v k hk⟩
  have hg := fun v j => real_grid (n := n) (hu.1 v) j
  have hd := fun v d j => real_grid (n := n) ((hu.1 v).deriv p.δ d) j
  have hr := real_rotOf (p := p) (hu.1 0) (hu.1 1)
  have hx := fun j => real_grid (n := n) (SpectBudget.ux2_real (δ := p.δ) hr) j
  have hy := fun j => real_grid (n := n) (SpectBudget.uy2_real (δ := p.δ) hr) j
  have heta : ∀ d, RealOn S fun k => Complex.I * (p.δ d * k d : ℝ) * ((p.c2 : ℂ) * u 2 k) := fun d =>
    ((hu.1 2).mul (fun _ => p.c2) fun _ => rfl).deriv p.δ d
  fin_cases v
  · refine real_congr (real_sub (real_of_fft hS (n := n) (x := fun j => p.f * gridVal n S (u 1) j +
      (-gridVal n S (ux2 p.δ fun k => Sw1l.rotOf p k (u 0 k) (u 1 k)) j * gridVal n S (Energy.deriv p.δ 0 (u 0)) j
        - gridVal n S (uy2 p.δ fun k => Sw1l.rotOf p k (u 0 k) (u 1 k)) j * gridVal n S (Energy.deriv p.δ 1 (u 0)) j)) fun j => by
          simp only [map_add, map_sub, map_mul, map_neg, hg, hd, hx, hy, Complex.conj_ofReal]) (heta 0)) fun k hk => ?_
    simp only [tendModified, ofUEta, Sw1l.modified, Sw1l.trunc, hk, if_true]
    rfl
  · refine real_congr (real_sub (real_of_fft hS (n := n) (x := fun j => -p.f * gridVal n S (u 0) j +
      (-gridVal n S (ux2 p.δ fun k => Sw1l.rotOf p k (u 0 k) (u 1 k)) j * gridVal n S (Energy.deriv p.δ 0 (u 1)) j
        - gridVal n S (uy2 p.δ fun k => Sw1l.rotOf p k (u 0 k) (u 1 k)) j * gridVal n S (Energy.deriv p.δ 1 (u 1)) j)) fun j => by
          simp only [map_add, map_sub, map_mul, map_neg, hg, hd, hx, hy, Complex.conj_ofReal]) (heta 1)) fun k hk => ?_
    simp only [tendModified, ofUEta, Sw1l.modified, Sw1l.trunc, hk, if_true]
    rfl
  · refine real_congr (real_sub (real_of_fft hS (n := n) (x := fun j =>
      (-gridVal n S (ux2 p.δ fun k => Sw1l.rotOf p k (u 0 k) (u 1 k)) j * gridVal n S (Energy.deriv p.δ 0 (u 2)) j
        - gridVal n S (uy2 p.δ fun k => Sw1l.rotOf p k (u 0 k) (u 1 k)) j * gridVal n S (Energy.deriv p.δ 1 (u 2)) j)) fun j => by
          simp only [map_sub, map_mul, map_neg, hd, hx, hy]) (real_divOf (p := p) (hu.1 0) (hu.1 1))) fun k hk => ?_
    simp only [tendModified, ofUEta, Sw1l.modified, Sw1l.trunc, hk, if_true]
    rfl

theorem forced_out {D V : Type*} {S : Finset (D → ℤ)} {tend : (V → Fld D) → V → Fld D} (ht : ∀ u v k, k ∉ S → tend u v k = 0)
    {F : V → Fld D} (hF : ∀ v k, k ∉ S → F v k = 0) (u : V → Fld D) (v : V) (k : D → ℤ) (hk : k ∉ S) : forced F tend u v k = 0 := by
  rw [forced, ht u v k hk, hF v k hk, add_zero]

/-- The tendencies of sw1l are the documented equations. -/
theorem sw1l_eqs (p : Sw1l.Par) (hn : ∀ d, 0 < n d) (hS : NoAlias n S) (nu : Dissip.Nu) (F u : Fin 3 → Fld (Fin 2)) {k : Fin 2 → ℤ} (hk : k ∈ S) :
    forced F (tendSw1l p n S) u 0 k - dissipation p.δ nu (u 0) k
      = -advect S p.δ ![u 0, u 1] (u 0) k + p.f * u 1 k - p.c2 * pd p.δ 0 (u 2) k - dissipation p.δ nu (u 0) k + F 0 k ∧
    forced F (tendSw1l p n S) u 1 k - dissipation p.δ nu (u 1) k
      = -advect S p.δ ![u 0, u 1] (u 1) k - p.f * u 0 k - p.c2 * pd p.δ 1 (u 2) k - dissipation p.δ nu (u 1) k + F 1 k ∧
    forced F (tendSw1l p n S) u 2 k - dissipation p.δ nu (u 2) k
      = -(pd p.δ 0 (u 0) k + pd p.δ 1 (u 1) k)
        - (pd p.δ 0 (exactProduct S (u 2) (u 0)) k + pd p.δ 1 (exactProduct S (u 2) (u 1)) k) - dissipation p.δ nu (u 2) k + F 2 k := by
  obtain ⟨h1, h2, h3⟩ := C57_sw1l p hn hS (uEta u) hk
  refine ⟨?_, ?_, ?_⟩ <;> simp only [forced, tendSw1l, ofUEta, h1, h2, h3, uEta] <;> ring

theorem FlowSw.toEq (hn : ∀ d, 0 < n d) (hS : NoAlias n S) {nu : Dissip.Nu} {F : Fin 3 → Fld (Fin 2)} {T : ℝ}
    {u : ℝ → Fin 3 → Fld (Fin 2)} (h : FlowSw p S nu F T u) (t : ℝ) (ht : t ∈ Set.Icc 0 T) (v : Fin 3) (k : Fin 2 → ℤ) (hk : k ∈ S) :
    HasDerivAt (fun t => u t v k) (forced F (tendSw1l p n S) (u t) v k - dissipation p.δ nu (u t v) k) t := by
  obtain ⟨e1, e2, e3⟩ := sw1l_eqs p hn hS nu F (u t) hk
  fin_cases v
  · exact (h.eqx t ht k hk).congr_deriv e1.symm
  · exact (h.eqy t ht k hk).congr_deriv e2.symm
  · exact (h.eqeta t ht k hk).congr_deriv e3.symm

theorem FlowSw.ofEq (hn : ∀ d, 0 < n d) (hS : NoAlias n S) {nu : Dissip.Nu} {F : Fin 3 → Fld (Fin 2)} {T : ℝ}
    {u : ℝ → Fin 3 → Fld (Fin 2)} (hr : ∀ t ∈ Set.Icc 0 T, ∀ v, RealField S (u t v))
    (h : ∀ t ∈ Set.Icc 0 T, ∀ v, ∀ k ∈ S,
      HasDerivAt (fun t => u t v k) (forced F (tendSw1l p n S) (u t) v k - dissipation p.δ nu (u t v) k) t) :
    FlowSw p S nu F T u :=
  ⟨hr, fun t ht k hk => (h t ht 0 k hk).congr_deriv (sw1l_eqs p hn hS nu F (u t) hk).1,
    fun t ht k hk => (h t ht 1 k hk).congr_deriv (sw1l_eqs p hn hS nu F (u t) hk).2.1,
    fun t ht k hk => (h t ht 2 k hk).congr_deriv (sw1l_eqs p hn hS nu F (u t) hk).2.2⟩

/-- C87, sw1l: for every real initial state, the truncated rotating shallow-water equations have a solution, at least for a short
time. -/
theorem C87_sw1l_exists (p : Sw1l.Par) (hn : ∀ d, 0 < n d) (hS : NoAlias n S) {nu : Dissip.Nu} (hnu : Nu.Ok nu)
    {F : Fin 3 → Fld (Fin 2)} (hF : ∀ v, RealField S (F v)) {u0 : Fin 3 → Fld (Fin 2)} (h0 : ∀ v, RealField S (u0 v)) :
    ∃ T > 0, ∃ u : ℝ → Fin 3 → Fld (Fin 2), u 0 = u0 ∧ FlowSw p S nu F T u := by
  have hsym := sym_of_real (h0 0)
  have hall : ∀ {a : Fin 3 → Fld (Fin 2)}, (∀ v, RealField S (a v)) → realPart S a = a := fun {a} ha =>
    (realPart_iff hsym _).2 ⟨fun v => (ha v).1, fun v => (ha v).2⟩
  obtain ⟨T, hT, u, hu0, hQ, hder⟩ := local_flow S p.δ hnu (smooth_forced (smooth_sw1l p n S) F) (realPart S) (realPart_out S)
    (realPart_idem hsym) (fun u hu => by
      have e : forced F (tendSw1l p n S) u = tendSw1l p n S u + F := rfl
      rw [e, map_add, sw1l_real hsym hu, hall hF]) (fun u hu => realPart_fd hsym p.δ nu hu) (hall h0)
  refine ⟨T, hT, u, hu0, FlowSw.ofEq hn hS (fun t ht v => ?_) hder⟩
  have := (realPart_iff hsym _).1 (hQ t ht)
  exact ⟨this.1 v, this.2 v⟩

/-- C87, sw1l: as long as the truncated rotating shallow-water equations have a solution, it is the only one and the simulations
converge to it. -/
theorem C87_sw1l (hn : ∀ d, 0 < n d) (hS : NoAlias n S) {nu : Dissip.Nu} (hnu : Nu.Ok nu)
    {F : Fin 3 → Fld (Fin 2)} (hF : ∀ v, RealField S (F v)) {T : ℝ} (hT : 0 ≤ T) {u : ℝ → Fin 3 → Fld (Fin 2)}
    (hu : FlowSw p S nu F T u) :
    (∀ u', u' 0 = u 0 → FlowSw p S nu F T u' → ∀ t ∈ Set.Icc 0 T, u' t = u t) ∧
      SimulationsConverge S p.δ nu (forced F (tendSw1l p n S)) T u :=
  ⟨fun _ h0 hu' => end_unique S p.δ (smooth_forced (smooth_sw1l p n S) F) (nu := nu) (T := T)
      (fun t ht v k hk => (hu'.real t ht v).2 k hk) (fun t ht v k hk => (hu.real t ht v).2 k hk)
      (fun t ht v k hk => hu'.toEq hn hS t ht v k hk) (fun t ht v k hk => hu.toEq hn hS t ht v k hk) h0,
    converge_of_solution_diss S p.δ hnu (smooth_forced (smooth_sw1l p n S) F)
      (forced_out (fun u v k hk => sw1l_out u v k hk) fun v k hk => (hF v).2 k hk) hT
      (fun t ht v k hk => (hu.real t ht v).2 k hk) (fun t ht v k hk => hu.toEq hn hS t ht v k hk)⟩

/-! ### sw1l.modified -/

/-- The tendencies of sw1l.modified are the documented equations. -/
theorem modified_eqs (hn : ∀ d, 0 < n d) (hS : NoAlias n S) (hδ : ∀ d, p.δ d ≠ 0) (nu : Dissip.Nu) (F u : Fin 3 → Fld (Fin 2))
    {vx vy : Fld (Fin 2)} (hv : RotationalPart S p.δ (u 0) (u 1) vx vy) {k : Fin 2 → ℤ} (hk : k ∈ S) :
    forced F (tendModified p n S) u 0 k - dissipation p.δ nu (u 0) k
      = -advect S p.δ ![vx, vy] (u 0) k + p.f * u 1 k - p.c2 * pd p.δ 0 (u 2) k - dissipation p.δ nu (u 0) k + F 0 k ∧
    forced F (tendModified p n S) u 1 k - dissipation p.δ nu (u 1) k
      = -advect S p.δ ![vx, vy] (u 1) k - p.f * u 0 k - p.c2 * pd p.δ 1 (u 2) k - dissipation p.δ nu (u 1) k + F 1 k ∧
    forced F (tendModified p n S) u 2 k - dissipation p.δ nu (u 2) k
      = -advect S p.δ ![vx, vy] (u 2) k - (pd p.δ 0 (u 0) k + pd p.δ 1 (u 1) k) - dissipation p.δ nu (u 2) k + F 2 k := by
  obtain ⟨h1, h2, h3⟩ := C57_sw1l_modified hn hS hδ (uEta u) hv hk
  refine ⟨?_, ?_, ?_⟩ <;> simp only [forced, tendModified, ofUEta, h1, h2, h3, uEta] <;> ring

/-- C87, sw1l.modified: for every real initial state, every duration and all forces and viscosities, the truncated documented equations
have one and only one solution and the simulations converge to it. -/
theorem C87_sw1l_modified (h : p.Ok) (hn : ∀ d, 0 < n d) (hS : NoAlias n S) {nu : Dissip.Nu} (hnu : Nu.Ok nu)
    {F : Fin 3 → Fld (Fin 2)} (hF : ∀ v, RealField S (F v)) {u0 : Fin 3 → Fld (Fin 2)} (h0 : ∀ v, RealField S (u0 v))
    {T : ℝ} (hT : 0 ≤ T) :
    ∃ u : ℝ → Fin 3 → Fld (Fin 2), u 0 = u0 ∧ FlowModified p S nu F T u ∧
      (∀ u', u' 0 = u0 → FlowModified p S nu F T u' → ∀ t ∈ Set.Icc 0 T, u' t = u t) ∧
      SimulationsConverge S p.δ nu (forced F (tendModified p n S)) T u := by
  have hsym := sym_of_real (h0 0)
  have htriad := SpectBudget.triad_of_noAlias hS (h0 0).1
  have hiff := fun u : Fin 3 → Fld (Fin 2) => realPart_iff hsym u
  have hall : ∀ {a : Fin 3 → Fld (Fin 2)}, (∀ v, RealField S (a v)) → realPart S a = a := fun {a} ha =>
    (hiff a).2 ⟨fun v => (ha v).1, fun v => (ha v).2⟩
  obtain ⟨u, hu0, hQ, hder, hconv⟩ := end_to_end_forced S p.δ hnu (tend := tendModified p n S) (smooth_modified p n S)
    (realPart S) (realPart_out S) (realPart_idem hsym) (fun u hu => modified_real hsym hu) (fun u hu => realPart_fd hsym p.δ nu hu)
    (w := fun v _ => ![1, 1, p.c2] v) (fun v _ => by fin_cases v; exacts [one_pos, one_pos, h.2]) (c := 0) le_rfl
    (fun u hu => by
      have hu' := ((hiff u).1 hu).1
      have := Sw1l.C54_energy (p := p) hn htriad hS.distinct (uEta u) (hu' 0) (hu' 1) (hu' 2)
      simp only [Sw1l.rateQuadratic, rate, mul_sum] at this
      simp only [Fin.sum_univ_three, zero_mul]
      simp only [Matrix.cons_val_zero, Matrix.cons_val_one, Matrix.cons_val, one_mul]
      exact this.le)
    (F := F) (hall hF) (u0 := u0) (hall h0) hT
  have hv := fun a : Fin 3 → Fld (Fin 2) => (velocity2_ux2 h.1 _ : RotationalPart S p.δ (a 0) (a 1) _ _)
  refine ⟨u, hu0, ⟨?_, ?_, ?_, ?_⟩, ?_, hconv⟩
  · intro t ht v
    have := (hiff _).1 (hQ t ht)
    exact ⟨this.1 v, this.2 v⟩
  · exact fun t ht vx vy hv k hk => (hder t ht 0 k).congr_deriv (modified_eqs hn hS h.1 nu F (u t) hv hk).1
  · exact fun t ht vx vy hv k hk => (hder t ht 1 k).congr_deriv (modified_eqs hn hS h.1 nu F (u t) hv hk).2.1
  · exact fun t ht vx vy hv k hk => (hder t ht 2 k).congr_deriv (modified_eqs hn hS h.1 nu F (u t) hv hk).2.2
  · intro u' h0' hflow t ht
    exact end_unique S p.δ (smooth_forced (smooth_modified p n S) F) (nu := nu) (T := T) (u := u') (u' := u)
      (fun t ht v k hk => (hflow.real t ht v).2 k hk) (fun t ht v k hk => ((hiff _).1 (hQ t ht)).2 v k hk)
      (fun t ht v k hk => by
        obtain ⟨e1, e2, e3⟩ := modified_eqs hn hS h.1 nu F (u' t) (hv (u' t)) hk
        fin_cases v
        · exact (hflow.eqx t ht _ _ (hv (u' t)) k hk).congr_deriv e1.symm
        · exact (hflow.eqy t ht _ _ (hv (u' t)) k hk).congr_deriv e2.symm
        · exact (hflow.eqeta t ht _ _ (hv (u' t)) k hk).congr_deriv e3.symm)
      (fun t ht v k _ => hder t ht v k) (by rw [hu0, h0']) t ht

/-! ### sw1l.exactlin -/

/-- The conversion to normal modes is linear. -/
theorem qapam_lin (p : Sw1l.Par) (k : Fin 2 → ℤ) : ∃ a b c : Sw1l.QA, ∀ x y e : ℂ, Sw1l.qapam p k ⟨x, y, e⟩
    = ⟨a.q * x + b.q * y + c.q * e, a.ap * x + b.ap * y + c.ap * e, a.am * x + b.am * y + c.am * e⟩ := by
  refine ⟨Sw1l.qapam p k ⟨1, 0, 0⟩, Sw1l.qapam p k ⟨0, 1, 0⟩, Sw1l.qapam p k ⟨0, 0, 1⟩, fun x y e => ?_⟩
  simp only [Sw1l.qapam]
  split_ifs <;> simp only [Sw1l.QA.mk.injEq] <;> refine ⟨?_, ?_, ?_⟩ <;> ring

/-- The conversion from normal modes is linear. -/
theorem uEtaFrom_lin (p : Sw1l.Par) (k : Fin 2 → ℤ) : ∃ a b c : Sw1l.UEta, ∀ x y e : ℂ, Sw1l.uEtaFrom p k ⟨x, y, e⟩
    = ⟨a.ux * x + b.ux * y + c.ux * e, a.uy * x + b.uy * y + c.uy * e, a.eta * x + b.eta * y + c.eta * e⟩ := by
  refine ⟨Sw1l.uEtaFrom p k ⟨1, 0, 0⟩, Sw1l.uEtaFrom p k ⟨0, 1, 0⟩, Sw1l.uEtaFrom p k ⟨0, 0, 1⟩, fun x y e => ?_⟩
  by_cases hk : k = 0 <;> by_cases hf : p.f = 0
  all_goals
    simp only [Sw1l.uEtaFrom, Sw1l.fromA, Sw1l.fromQ, Sw1l.etaFromA, Sw1l.invLap, Sw1l.divFromApAm, Sw1l.vecFromDiv, Forcing.vecFromRot, hk,
      hf, if_true, if_false, Sw1l.UEta.mk.injEq]
    refine ⟨?_, ?_, ?_⟩ <;> ring

theorem exactlin_out (u : Fin 3 → Fld (Fin 2)) (v : Fin 3) (k : Fin 2 → ℤ) (hk : k ∉ S) : tendExactlin p n S u v k = 0 := by
  fin_cases v <;> simp [tendExactlin, ofModes, Sw1l.exactlin, hk]

theorem smooth_exactlin (p : Sw1l.Par) (n : Fin 2 → ℕ) (S G : Finset (Fin 2 → ℤ)) (m : ℕ) (v : Fin 3) (k : Fin 2 → ℤ) :
    ContDiff ℝ m fun a : Arr (Fin 3 × G) => tendExactlin p n S (fields G a) v k := by
  by_cases hk : k ∈ S
  swap
  · simp only [exactlin_out _ v k hk]
    exact contDiff_const
  have hf := fun v => cd_fields (V := Fin 3) G m v
  have hu : ∀ k, (ContDiff ℝ m fun a : Arr (Fin 3 × G) => (Sw1l.uEtaFrom p k (modes (fields G a) k)).ux) ∧
      (ContDiff ℝ m fun a : Arr (Fin 3 × G) => (Sw1l.uEtaFrom p k (modes (fields G a) k)).uy) ∧
      ContDiff ℝ m fun a : Arr (Fin 3 × G) => (Sw1l.uEtaFrom p k (modes (fields G a) k)).eta := by
    intro k
    obtain ⟨a, b, c, h⟩ := uEtaFrom_lin p k
    simp only [modes, h]
    exact ⟨((contDiff_const.mul (hf 0 k)).add (contDiff_const.mul (hf 1 k))).add (contDiff_const.mul (hf 2 k)),
      ((contDiff_const.mul (hf 0 k)).add (contDiff_const.mul (hf 1 k))).add (contDiff_const.mul (hf 2 k)),
      ((contDiff_const.mul (hf 0 k)).add (contDiff_const.mul (hf 1 k))).add (contDiff_const.mul (hf 2 k))⟩
  have gx := cd_grid (fun k => (hu k).1) n S
  have gy := cd_grid (fun k => (hu k).2.1) n S
  have ge := cd_grid (fun k => (hu k).2.2) n S
  have gr := cd_grid (fun k => (hf 0 k).add ((contDiff_const (c := (p.f : ℂ))).mul (hu k).2.2)) n S
  have hu2 := (cd_fft (fun j => ((gx j).pow 2).add ((gy j).pow 2)) k).div_const (2 : ℂ)
  have n1 := (cd_fft (fun j => (gr j).mul (gy j)) k).sub ((contDiff_const (c := Complex.I * p.kx k)).mul hu2)
  have n2 := (cd_fft (fun j => (gr j).neg.mul (gx j)) k).sub ((contDiff_const (c := Complex.I * p.ky k)).mul hu2)
  have n3 := (cd_divOf (p := p) (cd_fft (fun j => (ge j).mul (gx j)) k) (cd_fft (fun j => (ge j).mul (gy j)) k) k).neg
  obtain ⟨a, b, c, h⟩ := qapam_lin p k
  have he : ∀ x : Arr (Fin 3 × G), Sw1l.exactlin p n S (modes (fields G x)) k = Sw1l.qapam p k (Sw1l.exactlinN p n S
      (fun k => Sw1l.uEtaFrom p k (modes (fields G x) k))
      (fun k => (modes (fields G x) k).q + p.f * (Sw1l.uEtaFrom p k (modes (fields G x) k)).eta) k) := fun x => by
    simp only [Sw1l.exactlin, hk, if_true]
  fin_cases v <;> simp only [tendExactlin, ofModes, he] <;> simp only [Sw1l.exactlinN, h]
  · exact ((contDiff_const.mul n1).add (contDiff_const.mul n2)).add (contDiff_const.mul n3)
  · exact ((contDiff_const.mul n1).add (contDiff_const.mul n2)).add (contDiff_const.mul n3)
  · exact ((contDiff_const.mul n1).add (contDiff_const.mul n2)).add (contDiff_const.mul n3)

theorem modes_ofModes (a : (Fin 2 → ℤ) → Sw1l.QA) : modes (ofModes a) = a := rfl

/-- The normal modes of a flow. -/
def toModes (p : Sw1l.Par) (u : Fin 3 → Fld (Fin 2)) : Fin 3 → Fld (Fin 2) := ofModes fun k => Sw1l.qapam p k (uEta u k)

theorem mean_eta {nu : Dissip.Nu} {F : Fin 3 → Fld (Fin 2)} (hF0 : F 2 0 = 0) {T : ℝ}
    {u : ℝ → Fin 3 → Fld (Fin 2)} (hu : FlowSw p S nu F T u) (h0 : u 0 2 0 = 0) : ∀ t ∈ Set.Icc 0 T, u t 2 0 = 0 := by
  by_cases hk : (0 : Fin 2 → ℤ) ∈ S
  · have hd : ∀ t ∈ Set.Icc 0 T, HasDerivAt (fun t => u t 2 0) 0 t := by
      intro t ht
      refine (hu.eqeta t ht 0 hk).congr_deriv ?_
      simp [pd, dissipation, hF0]
    intro t ht
    have := constant_of_has_deriv_right_zero (f := fun t => u t 2 0) (a := 0) (b := T)
      (fun s hs => (hd s hs).continuousAt.continuousWithinAt) (fun s hs => (hd s ⟨hs.1, hs.2.le⟩).hasDerivWithinAt) t ht
    simpa [h0] using this
  · exact fun t ht => (hu.real t ht 2).2 0 hk

/-- C87, sw1l.exactlin: for a flow solution of the truncated rotating shallow-water equations, without mean displacement of the
surface at the initial time, the simulations of sw1l.exactlin, whose variables are the normal modes and whose linear terms are
integrated exactly, converge to the normal modes of the flow. With `C87_sw1l`, the simulations of sw1l and sw1l.exactlin converge to
the same flow. -/
theorem C87_sw1l_exactlin (h : p.Ok) (hf : 0 ≤ p.f) (hn : ∀ d, 0 < n d) (hS : NoAlias n S) {nu : Dissip.Nu} (hnu : Nu.Ok nu)
    {F : Fin 3 → Fld (Fin 2)} (hF : ∀ v, RealField S (F v)) (hF0 : F 2 0 = 0) {T : ℝ} (hT : 0 ≤ T)
    {u : ℝ → Fin 3 → Fld (Fin 2)} (hu : FlowSw p S nu F T u) (h0 : u 0 2 0 = 0) :
    SimulationsConvergeFreq S (freqExactlin p nu) (forced (toModes p F) (tendExactlin p n S)) T fun t => toModes p (u t) := by
  have hout : ∀ a : Fin 3 → Fld (Fin 2), (∀ v k, k ∉ S → a v k = 0) → ∀ v k, k ∉ S → toModes p a v k = 0 := by
    intro a ha v k hk
    obtain ⟨x, y, z, hl⟩ := qapam_lin p k
    fin_cases v <;> simp [toModes, ofModes, uEta, hl, ha _ k hk]
  refine converge_of_solution S ?_ (smooth_forced (smooth_exactlin p n S) _)
    (forced_out (fun u v k hk => exactlin_out u v k hk) (hout F fun v k hk => (hF v).2 k hk)) hT
    (fun t ht => hout (u t) fun v k hk => (hu.real t ht v).2 k hk) ?_
  · intro v k
    have := fd_nonneg hnu (waveSq_nonneg p.δ k)
    fin_cases v <;> simp [freqExactlin, ofModes, Sw1l.freqComplex, this]
  · intro t ht v k hk
    have he := mean_eta hF0 hu h0 t ht
    have hback : (fun k => Sw1l.uEtaFrom p k (Sw1l.qapam p k (uEta (u t) k))) = uEta (u t) := by
      funext k
      by_cases hk0 : k = 0
      · subst hk0
        obtain ⟨e1, e2, -⟩ := Sw1l.C39_mean (p := p) (uEta (u t) 0) ⟨0, 0, 0⟩ rfl
        have e3 := Sw1l.C39_mean_eta_violated (p := p) (uEta (u t) 0)
        ext
        · exact e1
        · exact e2
        · rw [e3]
          exact he.symm
      · exact Sw1l.C39_roundtrip_uxuyeta h hk0 _
    have hq0 : (Sw1l.qapam p 0 (uEta (u t) 0)).q = 0 := by simp [Sw1l.qapam]
    have hrhs := Sw1l.C56_exactlin_same_equations h hn hS.distinct (fun k => Sw1l.qapam p k (uEta (u t) k)) hq0 hk (Or.inr hf)
    rw [hback] at hrhs
    have d := fun v => hu.toEq hn hS t ht v k hk
    have hfd : ∀ v, dissipation p.δ nu (u t v) k = (Dissip.fd nu (waveSq p.δ k) : ℂ) * u t v k := fun v => by
      simp only [dissipation, fd_eq hnu, waveSq]
    obtain ⟨a, b, c, hl⟩ := qapam_lin p k
    have hN : Sw1l.qapam p k (Sw1l.sw1l p n S (uEta (u t)) k)
        = Sw1l.qapam p k ⟨tendSw1l p n S (u t) 0 k, tendSw1l p n S (u t) 1 k, tendSw1l p n S (u t) 2 k⟩ := rfl
    rw [hN, hl] at hrhs
    have hrq := congrArg Sw1l.QA.q hrhs
    have hrp := congrArg Sw1l.QA.ap hrhs
    have hrm := congrArg Sw1l.QA.am hrhs
    simp only [Sw1l.exactlinRhs] at hrq hrp hrm
    fin_cases v
    · simp only [toModes, ofModes, uEta, hl]
      refine ((((d 0).const_mul a.q).add ((d 1).const_mul b.q)).add ((d 2).const_mul c.q)).congr_deriv ?_
      simp only [hfd, forced, tendExactlin, modes_ofModes, freqExactlin, ofModes, toModes, uEta, hl] at hrq ⊢
      linear_combination -hrq
    · simp only [toModes, ofModes, uEta, hl]
      refine ((((d 0).const_mul a.ap).add ((d 1).const_mul b.ap)).add ((d 2).const_mul c.ap)).congr_deriv ?_
      simp only [hfd, forced, tendExactlin, modes_ofModes, freqExactlin, ofModes, toModes, uEta, hl] at hrp ⊢
      linear_combination -hrp
    · simp only [toModes, ofModes, uEta, hl]
      refine ((((d 0).const_mul a.am).add ((d 1).const_mul b.am)).add ((d 2).const_mul c.am)).congr_deriv ?_
      simp only [hfd, forced, tendExactlin, modes_ofModes, freqExactlin, ofModes, toModes, uEta, hl] at hrm ⊢
      linear_combination -hrm

/-! ### The hypotheses are satisfiable -/

/-- A forced Boussinesq flow without dissipation. -/
example : ∃ rot b : ℝ → Fld (Fin 2), rot 0 = (fun k => if k ∈ box then 1 else 0) ∧ b 0 = (fun k => if k ∈ box then 1 else 0) ∧
    FlowBouss box (fun _ => 1) ⟨0, 0, 0, 0⟩ (fun k => if k ∈ box then 1 else 0) (fun k => if k ∈ box then 1 else 0) 10 rot b := by
  obtain ⟨rot, b, h0, hb0, h, -⟩ := C87_ns2d_bouss (n := fun _ => 4) (fun _ => by norm_num) box_noAlias (δ := fun _ => 1)
    (fun _ => one_ne_zero) (nu := ⟨0, 0, 0, 0⟩) ⟨le_rfl, le_rfl, le_rfl, rfl⟩ box_real box_real box_real box_real (T := 10) (by norm_num)
  exact ⟨rot, b, h0, hb0, h⟩

theorem one_mode_real : RealField ({fun _ => -1, fun _ => 0, fun _ => 1} : Finset (Unit → ℤ))
    fun k => if k () = -1 ∨ k () = 1 then 1 else 0 := by
  refine ⟨fun k hk => ?_, fun k hk => ?_⟩
  · simp only [mem_insert, mem_singleton] at hk
    rcases hk with rfl | rfl | rfl <;> constructor <;> simp <;> simp [funext_iff]
  · simp only [mem_insert, mem_singleton, not_or] at hk
    refine if_neg ?_
    rintro (h | h)
    · exact hk.1 (funext fun _ => h)
    · exact hk.2.2 (funext fun _ => h)

/-- The Burgers equation without dissipation, from a cosine, with both solvers. -/
example (skew : Bool) : ∃ u : ℝ → Fld Unit, u 0 = (fun k => if k () = -1 ∨ k () = 1 then 1 else 0) ∧
    FlowBurgers {fun _ => -1, fun _ => 0, fun _ => 1} 1 ⟨0, 0, 0, 0⟩ (fun k => if k () = -1 ∨ k () = 1 then 1 else 0) 10 u ∧
    SimulationsConverge {fun _ => -1, fun _ => 0, fun _ => 1} (fun _ => 1) ⟨0, 0, 0, 0⟩
      (forced (fun _ => fun k => if k () = -1 ∨ k () = 1 then 1 else 0)
        (tendBurgers skew 4 {fun _ => -1, fun _ => 0, fun _ => 1} 1)) 10 fun t _ => u t := by
  obtain ⟨u, h0, h, -, hc⟩ := C87_burgers skew (nx := 4) (by norm_num) (fun k hk => by
      simp only [mem_insert, mem_singleton] at hk
      rcases hk with rfl | rfl | rfl <;> norm_num) 1 (nu := ⟨0, 0, 0, 0⟩) ⟨le_rfl, le_rfl, le_rfl, rfl⟩ one_mode_real one_mode_real
    (T := 10) (by norm_num)
  exact ⟨u, h0, h, hc⟩

theorem waves_real {d : ℕ} : RealField box fun k : Fin d → ℤ => if k ∈ (box : Finset (Fin d → ℤ)) ∧ k ≠ 0 then 1 else 0 :=
  ⟨fun k hk => ⟨box_neg hk, by simp [hk, box_neg hk, apply_ite]⟩, fun k hk => by simp [hk]⟩

theorem waves_real3 (v : Fin 3) : RealField (box : Finset (Fin 2 → ℤ))
    ((fun _ k => if k ∈ (box : Finset (Fin 2 → ℤ)) ∧ k ≠ 0 then 1 else 0 : Fin 3 → Fld (Fin 2)) v) := waves_real

/-- A forced rotating flow of shallow water, computed by both sw1l and sw1l.exactlin. -/
example : ∃ T > 0, ∃ u : ℝ → Fin 3 → Fld (Fin 2), u 0 = (fun _ k => if k ∈ box ∧ k ≠ 0 then 1 else 0) ∧
    SimulationsConverge box (fun _ => 1) ⟨0, 1, 0, 0⟩
      (forced (fun _ k => if k ∈ box ∧ k ≠ 0 then 1 else 0) (tendSw1l ⟨fun _ => 1, 1, 20⟩ (fun _ => 4) box)) T u ∧
    SimulationsConvergeFreq box (freqExactlin ⟨fun _ => 1, 1, 20⟩ ⟨0, 1, 0, 0⟩)
      (forced (toModes ⟨fun _ => 1, 1, 20⟩ fun _ k => if k ∈ box ∧ k ≠ 0 then 1 else 0)
        (tendExactlin ⟨fun _ => 1, 1, 20⟩ (fun _ => 4) box)) T fun t => toModes ⟨fun _ => 1, 1, 20⟩ (u t) := by
  have hnu : Nu.Ok ⟨0, 1, 0, 0⟩ := ⟨le_rfl, by norm_num, le_rfl, rfl⟩
  obtain ⟨T, hT, u, h0, hu⟩ := C87_sw1l_exists ⟨fun _ => 1, 1, 20⟩ (n := fun _ => 4) (fun _ => by norm_num) box_noAlias hnu
    waves_real3 waves_real3
  refine ⟨T, hT, u, h0, (C87_sw1l (fun _ => by norm_num) box_noAlias hnu waves_real3 hT.le hu).2,
    C87_sw1l_exactlin ⟨fun _ => one_ne_zero, by norm_num⟩ (by norm_num) (fun _ => by norm_num) box_noAlias hnu waves_real3 (by simp) hT.le
      hu (by rw [h0]; simp)⟩

/-- A flow of sw1l.modified. -/
example : ∃ u : ℝ → Fin 3 → Fld (Fin 2), u 0 = (fun _ k => if k ∈ box ∧ k ≠ 0 then 1 else 0) ∧
    FlowModified ⟨fun _ => 1, 1, 20⟩ box ⟨0, 0, 0, 0⟩ (fun _ k => if k ∈ box ∧ k ≠ 0 then 1 else 0) 10 u := by
  obtain ⟨u, h0, h, -⟩ := C87_sw1l_modified (p := ⟨fun _ => 1, 1, 20⟩) ⟨fun _ => one_ne_zero, by norm_num⟩ (n := fun _ => 4)
    (fun _ => by norm_num) box_noAlias (nu := ⟨0, 0, 0, 0⟩) ⟨le_rfl, le_rfl, le_rfl, rfl⟩ waves_real3 waves_real3 (T := 10) (by norm_num)
  exact ⟨u, h0, h⟩

end

end

end Verif.EndToEnd
