import Verif.Symmetry.ModelCfl
import Verif.Symmetry.Props
import Verif.Symmetry.PropsMirror
import Verif.Cfl.Lemmas

/-! # Lemmas for the runs with the CFL condition -/

set_option linter.unusedSectionVars false

namespace Verif.Symmetry

open Verif.Fourier Verif.Vectors Verif.Energy Verif.Galerkin Verif.Schemes Verif.EndToEnd Finset

noncomputable section

variable {D V : Type*} [Fintype D] [DecidableEq D]

/-! ### The time steps of two runs -/

/-- If the states of two runs correspond when their time steps do, and if the choices of the time steps correspond when the states do, then
the runs with the steps which are chosen correspond. -/
theorem follows_related {X X' : Type*} {τ : ℝ} {r : (ℕ → ℝ) → ℕ → X} {r' : (ℕ → ℝ) → ℕ → X'} {T : X → X'} {good : X → Prop}
    {pick : X → ℝ → Except String ℝ} {pick' : X' → ℝ → Except String ℝ}
    (hr' : ∀ dt dt' k, (∀ j < k, dt j = dt' j) → r' dt k = r' dt' k)
    {dt dt' : ℕ → ℝ} {d0 : ℝ} (hT : ∀ k, r' (fun j => τ * dt j) k = T (r dt k)) (hg : ∀ k, good (r dt k))
    (hp : ∀ x h d, good x → pick x h = .ok d → pick' (T x) (τ * h) = .ok (τ * d))
    (h : Follows pick d0 dt (r dt)) (h' : Follows pick' (τ * d0) dt' (r' dt')) (m : ℕ) :
    dt' m = τ * dt m ∧ r' dt' m = T (r dt m) := by
  obtain ⟨s, hs, h⟩ := h
  obtain ⟨s', hs', h'⟩ := h'
  have h0 : r' dt' 0 = T (r dt 0) := by rw [hr' dt' (fun j => τ * dt j) 0 fun j hj => absurd hj (Nat.not_lt_zero j), hT]
  have es : s' = τ * s := by
    rw [h0, hp _ _ _ (hg 0) hs] at hs'
    exact (Except.ok.inj hs').symm
  subst es
  induction m using Nat.strong_induction_on with
  | _ m ih =>
    have hm : r' dt' m = T (r dt m) := by
      rw [hr' dt' (fun j => τ * dt j) m fun j hj => (ih j hj).1, hT]
    refine ⟨?_, hm⟩
    have e' := h' m
    rw [hm] at e'
    have e := hp _ _ _ (hg m) (h m)
    cases m with
    | zero =>
      simp only at e e'
      rw [e] at e'
      exact (Except.ok.inj e').symm
    | succ m =>
      simp only at e e'
      rw [(ih m (Nat.lt_succ_self m)).1, e] at e'
      exact (Except.ok.inj e').symm

/-- The time steps which are chosen exist. -/
theorem follows_exists {X : Type*} {r : (ℕ → ℝ) → ℕ → X} (hr : ∀ dt dt' k, (∀ j < k, dt j = dt' j) → r dt k = r dt' k)
    {pick : X → ℝ → Except String ℝ} (hp : ∀ x h, ∃ d, pick x h = .ok d) (deltat0 : ℝ) : ∃ dt, Follows pick deltat0 dt (r dt) := by
  choose f hf using hp
  let d0 := f (r (fun _ => 0) 0) deltat0
  let prev (s : ℕ → ℝ) (m : ℕ) : ℝ := match m with | 0 => d0 | m + 1 => s m
  let seq : ℕ → ℕ → ℝ := fun k => Nat.rec (fun _ => 0) (fun k s => Function.update s k (f (r s k) (prev s k))) k
  have hs : ∀ k, seq (k + 1) = Function.update (seq k) k (f (r (seq k) k) (prev (seq k) k)) := fun _ => rfl
  have stable : ∀ j k, j < k → seq k j = seq (j + 1) j := by
    intro j k hjk
    induction k with
    | zero => omega
    | succ k ih =>
      rcases Nat.lt_succ_iff_lt_or_eq.1 hjk with h | rfl
      · rw [hs, Function.update_of_ne (by omega), ih h]
      · rfl
  refine ⟨fun m => seq (m + 1) m, d0, ?_, fun m => ?_⟩
  · rw [hr (fun m => seq (m + 1) m) (fun _ => 0) 0 fun j hj => absurd hj (Nat.not_lt_zero j)]
    exact hf _ _
  have h1 : r (fun m => seq (m + 1) m) m = r (seq m) m := hr _ _ _ fun j hj => (stable j m hj).symm
  have h3 : seq (m + 1) m = f (r (seq m) m) (prev (seq m) m) := by rw [hs]; simp
  have h4 := hf (r (seq m) m) (prev (seq m) m)
  simp only [h1, h3]
  cases m with
  | zero => exact h4
  | succ m => exact h4

theorem stepping_congr {ι : Type*} (project : Arr ι → Arr ι) (sc : Scheme) (N : ℕ → Arr ι → Arr ι) (f : Arr ι) (mask : ι → Bool)
    (ps pa pb : ℕ → Arr ι) (heap : Heap ι) (g1 g2 : Arr ι) (useCFL : Bool) (u0 : Arr ι) {dt dt' : ℕ → ℝ} (h0 : dt 0 = dt' 0) (k : ℕ)
    (h : ∀ j < k, dt j = dt' j) :
    stepping project sc N f mask ps pa pb heap g1 g2 useCFL u0 dt k = stepping project sc N f mask ps pa pb heap g1 g2 useCFL u0 dt' k := by
  induction k with
  | zero => simp only [stepping, h0]
  | succ k ih => simp only [stepping, ih fun j hj => h j (by omega), h k (by omega)]

theorem run_congr (S G : Finset (D → ℤ)) (δ : D → ℝ) (nu : Dissip.Nu) (project : Arr (V × G) → Arr (V × G))
    (tend : (V → Fld D) → V → Fld D) (c : Numerics D V) (F : ℕ → V → Fld D) (u0 : V → Fld D) (dt dt' : ℕ → ℝ) (k : ℕ)
    (h : ∀ j < k, dt j = dt' j) :
    run S G δ nu project tend (c.withDt dt) F u0 k = run S G δ nu project tend (c.withDt dt') F u0 k := by
  unfold run
  cases k with
  | zero => simp [stepping, Numerics.withDt, Heap.set]
  | succ k =>
    simp only [Numerics.withDt]
    rw [stepping_congr _ _ _ _ _ _ _ _ _ _ _ _ _ (h 0 (by omega)) _ h]

/-! ### The largest velocity of the grid -/

/-- The largest absolute value on the points of the grid. -/
def peak (G : Finset (D → ℤ)) (n : D → ℕ) (δ : D → ℝ) (a : Fld D) : ℝ :=
  sSup (Set.range fun j : D → ℤ => |(value G δ a (gridPoint n δ j)).re|)

theorem value_mod (G : Finset (D → ℤ)) {n : D → ℕ} (hn : ∀ d, 0 < n d) {δ : D → ℝ} (hδ : ∀ d, δ d ≠ 0) (a : Fld D) (j : D → ℤ) :
    value G δ a (gridPoint n δ j) = value G δ a (gridPoint n δ fun d => j d % n d) := by
  refine sum_congr rfl fun k _ => ?_
  congr 1
  have hn' : ∀ d, (n d : ℝ) ≠ 0 := fun d => by exact_mod_cast (hn d).ne'
  have e : ∑ d, δ d * (k d : ℝ) * gridPoint n δ j d
      = ∑ d, δ d * (k d : ℝ) * gridPoint n δ (fun d => j d % n d) d + 2 * Real.pi * ((∑ d, k d * (j d / n d) : ℤ) : ℝ) := by
    push_cast
    rw [mul_sum, ← sum_add_distrib]
    refine sum_congr rfl fun d _ => ?_
    have hj : (j d : ℝ) = (n d : ℝ) * ((j d / (n d : ℤ) : ℤ) : ℝ) + ((j d % (n d : ℤ) : ℤ) : ℝ) := by
      exact_mod_cast (Int.mul_ediv_add_emod (j d) (n d)).symm
    have h1 := hδ d
    have h2 := hn' d
    simp only [gridPoint]
    rw [hj]
    field_simp
    ring
  rw [e]
  push_cast
  rw [mul_add, Complex.exp_add]
  have : Complex.exp (Complex.I * (2 * Real.pi * ∑ x, (k x : ℂ) * ((j x / (n x : ℤ) : ℤ) : ℂ))) = 1 := by
    rw [show Complex.I * (2 * Real.pi * ∑ x, (k x : ℂ) * ((j x / (n x : ℤ) : ℤ) : ℂ))
      = ((∑ x, k x * (j x / (n x : ℤ)) : ℤ) : ℂ) * (2 * Real.pi * Complex.I) by push_cast; ring]
    exact Complex.exp_int_mul_two_pi_mul_I _
  rw [this, mul_one]

theorem maxAbs_cons (x : ℝ) (xs : List ℝ) : ∃ m, Cfl.maxAbs (x :: xs) = .ok m := ⟨_, rfl⟩

theorem maxAbs_phys (G : Finset (D → ℤ)) {n : D → ℕ} (hn : ∀ d, 0 < n d) {δ : D → ℝ} (hδ : ∀ d, δ d ≠ 0) (a : Fld D) :
    Cfl.maxAbs (phys G n δ a) = .ok (peak G n δ a) ∧
      IsGreatest (Set.range fun j : D → ℤ => |(value G δ a (gridPoint n δ j)).re|) (peak G n δ a) := by
  have hne : phys G n δ a ≠ [] := by
    simp only [phys, ne_eq, List.map_eq_nil_iff, Finset.toList_eq_nil]
    have : Nonempty (∀ d, Fin (n d)) := ⟨fun d => ⟨0, hn d⟩⟩
    exact univ_nonempty.ne_empty
  obtain ⟨m, hm⟩ : ∃ m, Cfl.maxAbs (phys G n δ a) = .ok m := by
    cases h : phys G n δ a with
    | nil => exact absurd h hne
    | cons x xs => exact maxAbs_cons x xs
  obtain ⟨h1, x, hx, h2⟩ := Cfl.maxAbs_spec hm
  have hg : IsGreatest (Set.range fun j : D → ℤ => |(value G δ a (gridPoint n δ j)).re|) m := by
    constructor
    · simp only [phys, List.mem_map] at hx
      obtain ⟨j, -, rfl⟩ := hx
      exact ⟨_, h2⟩
    · rintro _ ⟨j, rfl⟩
      simp only
      rw [value_mod G hn hδ]
      refine h1 _ (List.mem_map.2 ⟨fun d => ⟨(j d % n d).toNat, ?_⟩, by simp, ?_⟩)
      · have := Int.emod_lt_of_pos (j d) (b := n d) (by exact_mod_cast hn d)
        have := Int.emod_nonneg (j d) (b := n d) (by exact_mod_cast (hn d).ne')
        omega
      · simp only
        congr 4
        funext d
        exact Int.toNat_of_nonneg (Int.emod_nonneg (j d) (by exact_mod_cast (hn d).ne'))
  have : peak G n δ a = m := hg.csSup_eq
  rw [this]
  exact ⟨hm, hg⟩

theorem peak_of (G G' : Finset (D → ℤ)) {n n' : D → ℕ} (hn : ∀ d, 0 < n d) {δ δ' : D → ℝ} (hδ : ∀ d, δ d ≠ 0) (a a' : Fld D) {c : ℝ} (e : (D → ℤ) ≃ (D → ℤ))
    (h : ∀ j, |(value G' δ' a' (gridPoint n' δ' j)).re| = c * |(value G δ a (gridPoint n δ (e j))).re|) (hc : 0 ≤ c) :
    peak G' n' δ' a' = c * peak G n δ a := by
  have h1 := (maxAbs_phys G hn hδ a).2
  refine IsGreatest.csSup_eq ⟨?_, ?_⟩
  · obtain ⟨j, hj⟩ := h1.1
    refine ⟨e.symm j, ?_⟩
    simp only at hj ⊢
    rw [h, e.apply_symm_apply, hj]
  · rintro _ ⟨j, rfl⟩
    simp only
    rw [h]
    exact mul_le_mul_of_nonneg_left (h1.2 ⟨e j, rfl⟩) hc

theorem peak_nonneg (G : Finset (D → ℤ)) {n : D → ℕ} (hn : ∀ d, 0 < n d) {δ : D → ℝ} (hδ : ∀ d, δ d ≠ 0) (a : Fld D) :
    0 ≤ peak G n δ a := by
  obtain ⟨j, hj⟩ := (maxAbs_phys G hn hδ a).2.1
  rw [← hj]
  exact abs_nonneg _

/-! ### The choice of the time step -/

theorem fromTmp_scale {τ : ℝ} (hτ : 0 < τ) (CFL dtMax h tmp : ℝ) :
    Cfl.fromTmp CFL (τ * dtMax) (τ * h) (tmp / τ) = τ * Cfl.fromTmp CFL dtMax h tmp := by
  have e1 : Cfl.deltatCFL CFL (τ * dtMax) (tmp / τ) = τ * Cfl.deltatCFL CFL dtMax tmp := by
    unfold Cfl.deltatCFL
    have : tmp / τ > 0 ↔ tmp > 0 := div_pos_iff_of_pos_right hτ
    simp only [this]
    split
    · field_simp
    · rfl
  have e2 : ∀ m, Cfl.hysteresis (τ * h) (τ * m) = τ * Cfl.hysteresis h m := by
    intro m
    unfold Cfl.hysteresis
    rw [← mul_sub, abs_mul, abs_of_pos hτ, mul_div_mul_left _ _ hτ.ne']
    split <;> rfl
  rw [Cfl.fromTmp, e1, ← mul_min_of_nonneg _ _ hτ.le, e2]
  rfl

theorem pick2_eq {n : Fin 2 → ℕ} (hn : ∀ d, 0 < n d) (G : Finset (Fin 2 → ℤ)) {δ : Fin 2 → ℝ} (hδ : ∀ d, δ d ≠ 0) (CFL dtMax : ℝ)
    (u : Unit → Fld (Fin 2)) (h : ℝ) :
    pickNs2d n G δ CFL dtMax u h = .ok (Cfl.fromTmp CFL dtMax h (∑ d, peak G n δ (vel2 δ (u ()) d) / mesh n δ d)) := by
  simp [pickNs2d, Cfl.clfUxUy, Cfl.allreduceMax, Cfl.tmpUxUy, (maxAbs_phys G hn hδ _).1, Fin.sum_univ_two, vel2]

theorem pick3_eq {n : Fin 3 → ℕ} (hn : ∀ d, 0 < n d) (G : Finset (Fin 3 → ℤ)) {δ : Fin 3 → ℝ} (hδ : ∀ d, δ d ≠ 0) (CFL dtMax : ℝ)
    (v : Fin 3 → V) (u : V → Fld (Fin 3)) (h : ℝ) :
    pickNs3d n G δ CFL dtMax v u h = .ok (Cfl.fromTmp CFL dtMax h (∑ d, peak G n δ (u (v d)) / mesh n δ d)) := by
  have hl : (phys G n δ (u (v 0))).length > 0 := by
    rw [gt_iff_lt, List.length_pos_iff]
    intro e
    have := (maxAbs_phys G hn hδ (u (v 0))).1
    rw [e] at this
    cases this
  simp [pickNs3d, Cfl.clfUxUyUz, Cfl.allreduceMax, Cfl.tmpUxUyUz, (maxAbs_phys G hn hδ _).1, Fin.sum_univ_three, hl]

/-- The time step chosen is positive. -/
theorem fromTmp_pos {CFL dtMax h : ℝ} (tmp : ℝ) (hC : 0 < CFL) (hm : 0 < dtMax) (hh : 0 < h) : 0 < Cfl.fromTmp CFL dtMax h tmp := by
  unfold Cfl.fromTmp Cfl.hysteresis
  split
  · exact lt_min (Cfl.deltatCFL_pos hC hm) hm
  · exact hh

theorem follows_pos {X : Type*} {CFL dtMax d0 : ℝ} (hC : 0 < CFL) (hm : 0 < dtMax) (h0 : 0 < d0) {tmp : X → ℝ}
    {pick : X → ℝ → Except String ℝ} (hp : ∀ x h, pick x h = .ok (Cfl.fromTmp CFL dtMax h (tmp x))) {dt : ℕ → ℝ} {r : ℕ → X}
    (h : Follows pick d0 dt r) (m : ℕ) : 0 < dt m := by
  obtain ⟨s, hs, h⟩ := h
  have hs0 : 0 < s := by
    rw [hp] at hs
    rw [← Except.ok.inj hs]
    exact fromTmp_pos _ hC hm h0
  induction m with
  | zero =>
    have := h 0
    rw [hp] at this
    rw [← Except.ok.inj this]
    exact fromTmp_pos _ hC hm hs0
  | succ m ih =>
    have := h (m + 1)
    rw [hp] at this
    rw [← Except.ok.inj this]
    exact fromTmp_pos _ hC hm ih

/-! ### The maxima of the velocities of corresponding states -/

/-- With other units and with a point of the grid as origin. -/
theorem peak_units (G : Finset (D → ℤ)) {n : D → ℕ} (hn : ∀ d, 0 < n d) {δ : D → ℝ} (hδ : ∀ d, δ d ≠ 0) {ℓ : ℝ} (hℓ : 0 < ℓ) {c : ℝ}
    (hc : 0 ≤ c) (i : D → ℤ) (a : V → ℝ) (u : V → Fld D) (v : V) (hv : a v = c) :
    peak G n (fun d => δ d / ℓ) (transformed δ (gridPoint n δ i) a u v) = c * peak G n δ (u v) := by
  refine peak_of G G hn hδ _ _ (Equiv.addRight i) (fun j => ?_) hc
  rw [C95_transformed G δ _ hℓ.ne', hv]
  have e : (fun d => gridPoint n (fun d => δ d / ℓ) j d / ℓ + gridPoint n δ i d) = gridPoint n δ (Equiv.addRight i j) := by
    funext d
    have h1 := hδ d
    have h2 : (n d : ℝ) ≠ 0 := by exact_mod_cast (hn d).ne'
    have h3 := hℓ.ne'
    simp only [gridPoint, Equiv.coe_addRight, Pi.add_apply]
    push_cast
    field_simp
  rw [e, Complex.re_ofReal_mul, abs_mul, abs_of_nonneg hc]

theorem mesh_units (n : D → ℕ) (δ : D → ℝ) (ℓ : ℝ) (d : D) : mesh n (fun d => δ d / ℓ) d = ℓ * mesh n δ d := by
  simp only [mesh]
  rw [div_div_eq_mul_div]
  ring

theorem value_within {S G : Finset (D → ℤ)} (hSG : S ⊆ G) (δ : D → ℝ) {a : Fld D} (ha : ∀ k ∉ S, a k = 0) (x : D → ℝ) :
    value G δ a x = value S δ a x :=
  (sum_subset hSG fun k _ hk => by rw [ha k hk, zero_mul]).symm

/-- With a symmetry of the box and of the grid. -/
theorem peak_image (g : Sym D) {S G : Finset (D → ℤ)} (hSG : S ⊆ G) {n : D → ℕ} (hn : ∀ d, 0 < n d) (hgn : ∀ d, n (g.π d) = n d)
    {δ : D → ℝ} (hδ : ∀ d, δ d ≠ 0) (hg : g.Fits S δ) {a a' : Fld D} {s : ℤ} (hs : s * s = 1) (ha : ∀ k ∉ S, a k = 0)
    (ha' : a' = fun k => (s : ℂ) * a (g.back k)) : peak G n δ a' = peak G n δ a := by
  rw [← one_mul (peak G n δ a)]
  have h' : ∀ k ∉ S, a' k = 0 := fun k hk => by
    rw [ha']
    simp only
    rw [ha _ fun h => hk ((hg.modes k).1 h), mul_zero]
  refine peak_of G G hn hδ _ _ (backEquiv g) (fun j => ?_) zero_le_one
  rw [value_within hSG δ h', value_within hSG δ ha, ha']
  have e : value S δ (fun k => (s : ℂ) * a (g.back k)) (gridPoint n δ j) = (s : ℂ) * value S δ a (g.point (gridPoint n δ j)) :=
    C98_image g hg (V := Unit) id (fun _ => s) (fun _ => a) () (gridPoint n δ j)
  rw [e]
  have e2 : g.point (gridPoint n δ j) = gridPoint n δ (backEquiv g j) := by
    funext d
    obtain ⟨d, rfl⟩ := g.π.surjective d
    change g.point (gridPoint n δ j) (g.π d) = gridPoint n δ (g.back j) (g.π d)
    simp only [gridPoint, Sym.point, Equiv.symm_apply_apply, hg.box, hgn, back_apply]
    push_cast
    ring
  rw [e2]
  rcases mul_self_eq_one_iff.1 hs with rfl | rfl <;> simp

end

end Verif.Symmetry
