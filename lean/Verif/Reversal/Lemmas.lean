import Verif.Reversal.Spec
import Verif.EndToEnd.PropsRounding
import Verif.EndToEnd.PropsStrat
import Verif.EndToEnd.PropsPlate

/-! # C106: lemmas -/

set_option linter.unusedSectionVars false

namespace Verif.Reversal

open Verif.Fourier Verif.Energy Verif.Schemes Verif.EndToEnd Verif.Convergence Finset

noncomputable section

section

variable {ι : Type*} [Fintype ι]

theorem simulation_zero (sc : Scheme) (N : Arr ι → Arr ι) (f : Arr ι) (mask : ι → Bool) (ps pa pb : ℕ → Arr ι) (heap : Heap ι)
    (g1 g2 : Arr ι) (cfl : Bool) (u0 : Arr ι) {e : ℕ → Arr ι} (he : ∀ k, e (k + 1) = 0) (dt : ℕ → ℝ) (k : ℕ) :
    simulationPerturbed sc N f mask ps pa pb heap g1 g2 cfl u0 e dt k
      = simulation sc N f mask ps pa pb heap g1 g2 cfl (u0 + e 0) dt k := by
  induction k with
  | zero => rfl
  | succ k ih =>
    have hset : ∀ h : Heap ι, h.set .state (h .state + 0) = h := by
      intro h
      funext b
      by_cases hb : b = .state
      · rw [hb, set_same, add_zero]
      · rw [set_other _ _ _ _ hb]
    simp only [simulationPerturbed, simulation, ih, he, hset]

/-- The state after `k` steps depends on the first `k` time steps. -/
theorem simulation_congr (sc : Scheme) (N : Arr ι → Arr ι) (f : Arr ι) (mask : ι → Bool) (ps pa pb : ℕ → Arr ι) (heap : Heap ι)
    (g1 g2 : Arr ι) (cfl : Bool) (u0 : Arr ι) {dt dt' : ℕ → ℝ} (h0 : dt 0 = dt' 0) (k : ℕ) (h : ∀ j < k, dt j = dt' j) :
    simulation sc N f mask ps pa pb heap g1 g2 cfl u0 dt k = simulation sc N f mask ps pa pb heap g1 g2 cfl u0 dt' k := by
  induction k with
  | zero => simp only [simulation, h0]
  | succ k ih =>
    simp only [simulation, ih fun j hj => h j (by omega), h k (by omega)]

/-- The simulations started from a state near `s 0` stay near the solution. -/
theorem stable {order : ℕ} {T : ℝ} {s : ℝ → Arr ι} {cfl : Bool} {sc : Scheme} {N : Arr ι → Arr ι} {f : Arr ι} {mask : ι → Bool}
    {ps pa pb : ℕ → Arr ι} {heap : Heap ι} {g1 g2 : Arr ι}
    (hc : ConvergesPerturbed order T s cfl (statesPerturbed sc N f mask ps pa pb heap g1 g2 cfl (s 0))) :
    ∃ C h0 η : ℝ, 0 < h0 ∧ 0 < η ∧ ∀ (h ε0 : ℝ) (a : Arr ι) (dt : ℕ → ℝ), h ≤ h0 → (∀ k, 0 < dt k ∧ dt k ≤ h) →
      (cfl = false → ∀ k, dt k = dt 0) → ‖a - s 0‖ ≤ ε0 → ε0 ≤ η → ∀ k : ℕ, elapsed dt k ≤ T →
        ‖states sc N f mask ps pa pb heap g1 g2 cfl a dt k - s (elapsed dt k)‖ ≤ C * (ε0 + h ^ order) := by
  obtain ⟨C, h0, η, hp, hη, hC⟩ := hc
  refine ⟨C, h0, η, hp, hη, fun h ε0 a dt hh hdt hcst ha he k hk => ?_⟩
  let dt' : ℕ → ℝ := fun j => if j < k then dt j else dt 0
  have h00 : dt 0 = dt' 0 := by simp only [dt']; split <;> rfl
  have hlt : ∀ j < k, dt j = dt' j := fun j hj => by simp only [dt', if_pos hj]
  have hel : elapsed dt' k = elapsed dt k := by
    simp only [elapsed]
    exact sum_congr rfl fun j hj => (hlt j (mem_range.1 hj)).symm
  obtain ⟨m, hm, hmin⟩ := exists_min_image (range (k + 1)) dt ⟨0, by simp⟩
  have hdt' : ∀ j, dt m ≤ dt' j ∧ dt' j ≤ h := by
    intro j
    simp only [dt']
    split
    · exact ⟨hmin j (by simp; omega), (hdt j).2⟩
    · exact ⟨hmin 0 (by simp), (hdt 0).2⟩
  let e : ℕ → Arr ι := fun j => if j = 0 then a - s 0 else 0
  have := hC h (dt m) ε0 0 e dt' hh (hdt m).1 hdt' (fun hf j => by
      simp only [dt']
      split <;> split <;> simp [hcst hf]) (by simpa [e] using ha) (fun j => by simp [e]) (by simpa using he) k (by rw [hel]; exact hk)
  rw [hel, zero_div, add_zero] at this
  simp only [statesPerturbed, simulation_zero sc N f mask ps pa pb heap g1 g2 cfl (s 0) (e := e) (fun j => by simp [e])] at this
  rw [← simulation_congr sc N f mask ps pa pb heap g1 g2 cfl _ h00 k hlt] at this
  simpa [e] using this

theorem returns_core {order : ℕ} (hord : 1 ≤ order) {T : ℝ} {cfl : Bool} {R : Arr ι → Arr ι} (hR : ∀ a b, ‖R a - R b‖ = ‖a - b‖)
    (hRR : ∀ a, R (R a) = a) {there back : Arr ι → (ℕ → ℝ) → ℕ → Arr ι} {s s' : ℝ → Arr ι} (h0 : s' 0 = R (s T)) (hT : s' T = R (s 0))
    (hc : ∃ C h0 η : ℝ, 0 < h0 ∧ 0 < η ∧ ∀ (h ε0 : ℝ) (a : Arr ι) (dt : ℕ → ℝ), h ≤ h0 → (∀ k, 0 < dt k ∧ dt k ≤ h) →
      (cfl = false → ∀ k, dt k = dt 0) → ‖a - s 0‖ ≤ ε0 → ε0 ≤ η → ∀ k : ℕ, elapsed dt k ≤ T →
        ‖there a dt k - s (elapsed dt k)‖ ≤ C * (ε0 + h ^ order))
    (hc' : ∃ C h0 η : ℝ, 0 < h0 ∧ 0 < η ∧ ∀ (h ε0 : ℝ) (a : Arr ι) (dt : ℕ → ℝ), h ≤ h0 → (∀ k, 0 < dt k ∧ dt k ≤ h) →
      (cfl = false → ∀ k, dt k = dt 0) → ‖a - s' 0‖ ≤ ε0 → ε0 ≤ η → ∀ k : ℕ, elapsed dt k ≤ T →
        ‖back a dt k - s' (elapsed dt k)‖ ≤ C * (ε0 + h ^ order)) :
    Returns order T cfl R there back (s 0) := by
  obtain ⟨C, h1, η, hp1, hη, hC⟩ := hc
  obtain ⟨C', h2, η', hp2, hη', hC'⟩ := hc'
  have hab : 0 < |C| + 1 := by positivity
  refine ⟨C' * (C + 1), min (min h1 h2) (min 1 (η' / (|C| + 1))), by positivity, fun h dt dt' hh hdt hdt' hcst k k' hk hk' => ?_⟩
  have hpos : 0 < h := (hdt 0).1.trans_le (hdt 0).2
  have e1 : h ≤ h1 := hh.trans ((min_le_left _ _).trans (min_le_left _ _))
  have e2 : h ≤ h2 := hh.trans ((min_le_left _ _).trans (min_le_right _ _))
  have e3 : h ≤ 1 := hh.trans ((min_le_right _ _).trans (min_le_left _ _))
  have e4 : h ≤ η' / (|C| + 1) := hh.trans ((min_le_right _ _).trans (min_le_right _ _))
  have ha := hC h 0 (s 0) dt e1 hdt (fun hf => (hcst hf).1) (by simp) hη.le k hk.le
  rw [hk, zero_add] at ha
  have hsm : C * h ^ order ≤ η' := by
    have : h ^ order ≤ h := by
      calc h ^ order ≤ h ^ 1 := pow_le_pow_of_le_one hpos.le e3 hord
        _ = h := pow_one h
    calc C * h ^ order ≤ |C| * h ^ order := by gcongr; exact le_abs_self C
      _ ≤ (|C| + 1) * h := by gcongr; linarith
      _ ≤ η' := by rw [le_div_iff₀ hab] at e4; linarith
  have hb := hC' h (C * h ^ order) (R (there (s 0) dt k)) dt' e2 hdt' (fun hf => (hcst hf).2) (by rw [h0, hR]; exact ha) hsm k' hk'.le
  rw [hk', hT] at hb
  have := hR (back (R (there (s 0) dt k)) dt' k') (R (s 0))
  rw [hRR] at this
  rw [this]
  refine hb.trans (le_of_eq ?_)
  ring

end

section

variable {D V I : Type*}

/-- Signs. -/
def Signs (ε : V → ℝ) : Prop := ∀ v, ε v = 1 ∨ ε v = -1

theorem Signs.sq {ε : V → ℝ} (h : Signs ε) (v : V) : ε v * ε v = 1 := by
  rcases h v with h | h <;> simp [h]

theorem flipArr_norm [Fintype V] [Fintype I] {ε : V → ℝ} (h : Signs ε) (a b : Arr (V × I)) : ‖flipArr ε a - flipArr ε b‖ = ‖a - b‖ := by
  have e : ∀ i, ‖(flipArr ε a - flipArr ε b) i‖ = ‖(a - b) i‖ := by
    intro i
    simp only [Pi.sub_apply, flipArr, ← mul_sub, norm_mul, Complex.norm_real]
    rcases h i.1 with h | h <;> simp [h]
  simp only [Pi.norm_def]
  congr 1
  refine sup_congr rfl fun i _ => ?_
  exact NNReal.eq (e i)

theorem flipArr_flipArr {ε : V → ℝ} (h : Signs ε) (a : Arr (V × I)) : flipArr ε (flipArr ε a) = a := by
  funext i
  have : (ε i.1 : ℂ) * (ε i.1 : ℂ) = 1 := by rw [← Complex.ofReal_mul, h.sq, Complex.ofReal_one]
  simp only [flipArr, ← mul_assoc, this, one_mul]

theorem array_flip (G : Finset (D → ℤ)) (ε : V → ℝ) (u : V → Fld D) : array G (flip ε u) = flipArr ε (array G u) := rfl

theorem fields_flip [DecidableEq (D → ℤ)] (G : Finset (D → ℤ)) (ε : V → ℝ) (a : Arr (V × G)) :
    fields G (flipArr ε a) = flip ε (fields G a) := by
  funext v k
  by_cases h : k ∈ G <;> simp [fields, flip, flipArr, h]

variable [Fintype D] [DecidableEq (D → ℤ)] [Fintype V]

/-- The reversed flow. -/
def backward (ε : V → ℝ) (T : ℝ) (u : ℝ → V → Fld D) (t : ℝ) : V → Fld D := flip ε (u (T - t))

theorem backward_deriv {S : Finset (D → ℤ)} {freq : V → Fld D} {tend tend' : (V → Fld D) → V → Fld D} {ε : V → ℝ}
    (hrev : ∀ u v k, tend' (flip ε u) v k = -(ε v : ℂ) * tend u v k) (hz : ∀ v k, freq v k = 0) {T : ℝ} {u : ℝ → V → Fld D}
    (hu : ∀ t ∈ Set.Icc 0 T, ∀ v, ∀ k ∈ S, HasDerivAt (fun t => u t v k) (tend (u t) v k - freq v k * u t v k) t) :
    ∀ t ∈ Set.Icc 0 T, ∀ v, ∀ k ∈ S, HasDerivAt (fun t => backward ε T u t v k)
      (tend' (backward ε T u t) v k - freq v k * backward ε T u t v k) t := by
  intro t ht v k hk
  have hTt : T - t ∈ Set.Icc 0 T := ⟨by linarith [ht.2], by linarith [ht.1]⟩
  have h1 := (hu (T - t) hTt v k hk).scomp t ((hasDerivAt_id t).const_sub T)
  have h2 := h1.const_mul (ε v : ℂ)
  refine h2.congr_deriv ?_
  simp only [backward, hrev, hz]
  simp

theorem order_pos {c : Scheme × ℕ} (hc : c ∈ orders) : 1 ≤ c.2 := by
  simp only [orders, List.mem_cons, List.not_mem_nil, or_false] at hc
  rcases hc with rfl | rfl | rfl | rfl <;> norm_num

theorem returns_of_solution {S : Finset (D → ℤ)} {freq : V → Fld D} (hz : ∀ v k, freq v k = 0) {tend tend' : (V → Fld D) → V → Fld D}
    (hsmooth : ∀ (G : Finset (D → ℤ)) (m : ℕ) v k, ContDiff ℝ m fun a : Arr (V × G) => tend (fields G a) v k)
    (hsmooth' : ∀ (G : Finset (D → ℤ)) (m : ℕ) v k, ContDiff ℝ m fun a : Arr (V × G) => tend' (fields G a) v k)
    (htend : ∀ u v k, k ∉ S → tend u v k = 0) (htend' : ∀ u v k, k ∉ S → tend' u v k = 0) {ε : V → ℝ} (hε : Signs ε)
    (hrev : ∀ u v k, tend' (flip ε u) v k = -(ε v : ℂ) * tend u v k) {T : ℝ} (hT : 0 ≤ T) {u : ℝ → V → Fld D}
    (hm : ∀ t ∈ Set.Icc 0 T, ∀ v k, k ∉ S → u t v k = 0)
    (hu : ∀ t ∈ Set.Icc 0 T, ∀ v, ∀ k ∈ S, HasDerivAt (fun t => u t v k) (tend (u t) v k - freq v k * u t v k) t)
    {G : Finset (D → ℤ)} (hG : S ⊆ G) {c : Scheme × ℕ} (hc : c ∈ orders) (ps pa pb ps' pa' pb' : ℕ → Arr (V × G))
    (heap heap' : Heap (V × G)) (g1 g2 g1' g2' : Arr (V × G)) (cfl : Bool) :
    Returns c.2 T cfl (flipArr ε) (states c.1 (onArrays G tend) (array G freq) (truncated G S) ps pa pb heap g1 g2 cfl)
      (states c.1 (onArrays G tend') (array G freq) (truncated G S) ps' pa' pb' heap' g1' g2' cfl) (array G (u 0)) := by
  have hf : ∀ v k, 0 ≤ (freq v k).re := fun v k => by rw [hz]; simp
  have r1 := robust_of_solution S hf hsmooth htend hT hm hu G hG c hc ps pa pb heap g1 g2 cfl
  have r2 := robust_of_solution S hf hsmooth' htend' hT (u := backward ε T u) (fun t ht v k hk => by
    rw [backward, flip, hm _ ⟨by linarith [ht.2], by linarith [ht.1]⟩ v k hk, mul_zero]) (backward_deriv hrev hz hu)
    G hG c hc ps' pa' pb' heap' g1' g2' cfl
  have e0 : array G (backward ε T u 0) = flipArr ε (array G (u T)) := by simp only [backward, sub_zero, array_flip]
  have e1 : array G (backward ε T u T) = flipArr ε (array G (u 0)) := by simp only [backward, sub_self, array_flip]
  have s1 := stable r1
  have s2 := stable r2
  exact returns_core (s := fun t => array G (u t)) (s' := fun t => array G (backward ε T u t)) (order_pos hc) (flipArr_norm hε)
    (flipArr_flipArr hε) e0 e1 s1 s2

theorem forced_rev {tend tend' : (V → Fld D) → V → Fld D} {ε : V → ℝ} (h : ∀ u v k, tend' (flip ε u) v k = -(ε v : ℂ) * tend u v k)
    (F : V → Fld D) (u : V → Fld D) (v : V) (k : D → ℤ) :
    forced (fun v k => -(ε v : ℂ) * F v k) tend' (flip ε u) v k = -(ε v : ℂ) * forced F tend u v k := by
  simp only [forced, h]
  ring

end

theorem inviscid_ok : Nu.Ok inviscid := ⟨le_rfl, le_rfl, le_rfl, rfl⟩

theorem freq_inviscid {D V : Type*} [Fintype D] (δ : D → ℝ) (v : V) (k : D → ℤ) : freqVisc δ inviscid v k = 0 := by
  rw [freqVisc, fd_eq inviscid_ok]
  simp [inviscid]

theorem dissipation_inviscid {D : Type*} [Fintype D] (δ : D → ℝ) (a : Fld D) (k : D → ℤ) : dissipation δ inviscid a k = 0 := by
  simp [dissipation, inviscid]

end

end Verif.Reversal
