import Verif.EndToEnd.PropsMore
import Verif.Convergence.PropsPerturbed

/-!
# C87: the simulations with rounding errors
-/

set_option linter.unusedSectionVars false

namespace Verif.EndToEnd

open Verif.Fourier Verif.Vectors Verif.Energy Verif.Galerkin Verif.Schemes Verif.Convergence Finset

noncomputable section

/-- All the simulations stay near `u` when the initial state and the state computed by each step are perturbed: the distance is bounded by a constant
times `ε0 + h ^ order + ε / hmin` (see `ConvergesPerturbed`). -/
def SimulationsRobust {D V : Type*} [DecidableEq (D → ℤ)] [Fintype V] (S : Finset (D → ℤ)) (freq : V → Fld D)
    (tend : (V → Fld D) → V → Fld D) (T : ℝ) (u : ℝ → V → Fld D) : Prop :=
  ∀ G : Finset (D → ℤ), S ⊆ G → ∀ c ∈ orders, ∀ (ps pa pb : ℕ → Arr (V × G)) (heap : Heap (V × G)) (g1 g2 : Arr (V × G)) (cfl : Bool),
    ConvergesPerturbed c.2 T (fun t => array G (u t)) cfl
      (statesPerturbed c.1 (onArrays G tend) (array G freq) (truncated G S) ps pa pb heap g1 g2 cfl (array G (u 0)))

/-- `ν2 k² + ν4 k⁴ + ν8 k⁸` for all the variables (`freq_lin`). -/
def freqVisc {D V : Type*} [Fintype D] (δ : D → ℝ) (nu : Dissip.Nu) : V → Fld D := fun _ k => (Dissip.fd nu (waveSq δ k) : ℂ)

section

variable {D V : Type*} [Fintype D] [DecidableEq (D → ℤ)] [Fintype V]

theorem robust_of_solution (S : Finset (D → ℤ)) {freq : V → Fld D} (hfreq : ∀ v k, 0 ≤ (freq v k).re)
    {tend : (V → Fld D) → V → Fld D}
    (hsmooth : ∀ (G : Finset (D → ℤ)) (m : ℕ) v k, ContDiff ℝ m fun a : Arr (V × G) => tend (fields G a) v k)
    (htend : ∀ u v k, k ∉ S → tend u v k = 0) {T : ℝ} (hT : 0 ≤ T) {u : ℝ → V → Fld D}
    (hm : ∀ t ∈ Set.Icc 0 T, ∀ v k, k ∉ S → u t v k = 0)
    (hu : ∀ t ∈ Set.Icc 0 T, ∀ v, ∀ k ∈ S, HasDerivAt (fun t => u t v k) (tend (u t) v k - freq v k * u t v k) t) :
    SimulationsRobust S freq tend T u := by
  have hNc : ∀ (G : Finset (D → ℤ)) (m : ℕ), ContDiff ℝ m (onArrays (V := V) G tend) := fun G m =>
    contDiff_pi.2 fun i => hsmooth G m i.1 i.2.1
  have hfa : ∀ t ∈ Set.Icc 0 T, fields S (array S (u t)) = u t := fun t ht => fields_array (Subset.refl S) (hm t ht)
  obtain ⟨s, heq, δ, hδ, hs⟩ := extend_solution (F := fun a : Arr (V × S) => onArrays S tend a - array S freq * a)
    ((hNc S 1).sub (contDiff_const.mul contDiff_id)) hT (s := fun t => array S (u t)) (fun t ht => by
      refine hasDerivAt_pi.2 fun i => (hu t ht i.1 i.2.1 i.2.2).congr_deriv ?_
      simp only [Pi.sub_apply, Pi.mul_apply, onArrays, hfa t ht]
      rfl)
  intro G hG c hc' ps pa pb heap g1 g2 cfl
  have hsol : Solution (onArrays G tend) (array G freq) (truncated G S) T fun t => array G (fields S (s t)) := by
    refine ⟨⟨δ, hδ, fun t ht => hasDerivAt_pi.2 fun i => ?_⟩, fun t _ i hi => ?_⟩
    · obtain ⟨v, k, hkG⟩ := i
      have e0 : fields G (array G (fields S (s t))) = fields S (s t) :=
        fields_array hG fun v k hk => by simp [fields, hk]
      by_cases hk : k ∈ S
      · have h1 := (hasDerivAt_pi.1 (hs t ht)) (v, ⟨k, hk⟩)
        have e1 : (fun t => array G (fields S (s t)) (v, ⟨k, hkG⟩)) = fun t => s t (v, ⟨k, hk⟩) := by
          funext t; simp [fields, array, hk]
        rw [e1]
        refine h1.congr_deriv ?_
        simp only [Pi.sub_apply, Pi.mul_apply, onArrays, e0]
        simp [array, fields, hk]
      · have e1 : (fun t => array G (fields S (s t)) (v, ⟨k, hkG⟩)) = fun _ => 0 := by
          funext t; simp [fields, array, hk]
        rw [e1]
        refine (hasDerivAt_const t (0 : ℂ)).congr_deriv ?_
        simp only [Pi.sub_apply, Pi.mul_apply, onArrays, e0]
        simp [array, fields, hk, htend _ v k hk]
    · have hk : i.2.1 ∉ S := by simpa [truncated] using hi
      simp [array, fields, hk]
  have hf : ∀ i : V × G, 0 ≤ (array G freq i).re := fun i => hfreq _ _
  have hconv : ConvergesPerturbed c.2 T (fun t => array G (fields S (s t))) cfl
      (statesPerturbed c.1 (onArrays G tend) (array G freq) (truncated G S) ps pa pb heap g1 g2 cfl (array G (fields S (s 0)))) := by
    have hall := C83_rounding_errors hf hsol ps pa pb heap g1 g2 cfl
    simp only [orders, List.mem_cons, List.not_mem_nil, or_false] at hc'
    rcases hc' with rfl | rfl | rfl | rfl
    · exact hall.1 (hNc G 1)
    · exact hall.2.1 (hNc G 2)
    · exact hall.2.2.1 (hNc G 2)
    · exact hall.2.2.2 (hNc G 4)
  have hback : ∀ t ∈ Set.Icc 0 T, fields S (s t) = u t := fun t ht => by rw [heq t ht, hfa t ht]
  obtain ⟨C, h0c, η, hpos, hη, hC⟩ := hconv
  refine ⟨C, h0c, η, hpos, hη, fun h hmin ε0 ε e dt hh hm0 hdt hcst he0 he hsm k hk => ?_⟩
  have hmem : elapsed dt k ∈ Set.Icc 0 T := ⟨sum_nonneg fun j _ => (hm0.trans_le (hdt j).1).le, hk⟩
  have := hC h hmin ε0 ε e dt hh hm0 hdt hcst he0 he hsm k hk
  simp only [hback _ hmem, hback 0 ⟨le_rfl, hT⟩] at this
  exact this

theorem robust_diss (S : Finset (D → ℤ)) (δ : D → ℝ) {nu : Dissip.Nu} (hnu : Nu.Ok nu)
    {tend : (V → Fld D) → V → Fld D}
    (hsmooth : ∀ (G : Finset (D → ℤ)) (m : ℕ) v k, ContDiff ℝ m fun a : Arr (V × G) => tend (fields G a) v k)
    (htend : ∀ u v k, k ∉ S → tend u v k = 0) {T : ℝ} (hT : 0 ≤ T) {u : ℝ → V → Fld D}
    (hm : ∀ t ∈ Set.Icc 0 T, ∀ v k, k ∉ S → u t v k = 0)
    (hu : ∀ t ∈ Set.Icc 0 T, ∀ v, ∀ k ∈ S, HasDerivAt (fun t => u t v k) (tend (u t) v k - dissipation δ nu (u t v) k) t) :
    SimulationsRobust S (freqVisc δ nu) tend T u :=
  robust_of_solution S (freq := freqVisc δ nu)
    (fun _ k => by rw [freqVisc, Complex.ofReal_re]; exact fd_nonneg hnu (waveSq_nonneg δ k)) hsmooth htend hT hm
    fun t ht v k hk => (hu t ht v k hk).congr_deriv (by simp only [freqVisc, dissipation, fd_eq hnu, waveSq])

end

/-- C87, ns2d with rounding errors: the simulations stay near the solution of the documented equations (which exists, `C87_ns2d`). -/
theorem C87_ns2d_rounding {n : Fin 2 → ℕ} (hn : ∀ d, 0 < n d) {S : Finset (Fin 2 → ℤ)} (hS : NoAlias n S) {δ : Fin 2 → ℝ} (hδ : ∀ d, δ d ≠ 0)
    (beta : ℝ) {nu : Dissip.Nu} (hnu : Nu.Ok nu) {F : Fld (Fin 2)} (hF : RealField S F) {T : ℝ} (hT : 0 ≤ T) {rot : ℝ → Fld (Fin 2)}
    (hrot : Flow2 S δ beta nu F T rot) :
    SimulationsRobust S (freqVisc δ nu) (forced (fun _ : Unit => F) (tend2d n S δ beta)) T fun t _ => rot t := by
  have hout : ∀ (u : Unit → Fld (Fin 2)) v k, k ∉ S → forced (fun _ : Unit => F) (tend2d n S δ beta) u v k = 0 :=
    forced_out (fun u v k hk => by simp [tend2d, ns2d, hk]) fun v k hk => hF.2 k hk
  refine robust_diss S δ hnu (smooth_forced (smooth_tend2d n S δ beta) fun _ => F) hout hT (fun t ht _ k hk => (hrot.real t ht).2 k hk)
    fun t ht v k hk => (hrot.eq t ht _ _ (velocity2_ux2 hδ (rot t)) k hk).congr_deriv ?_
  rw [forced, tend2d, C57_ns2d hn hS hδ beta (velocity2_ux2 hδ (rot t)) hk]
  ring

/-- C87, ns2d.strat with rounding errors. -/
theorem C87_ns2d_strat_rounding {n : Fin 2 → ℕ} (hn : ∀ d, 0 < n d) {S : Finset (Fin 2 → ℤ)} (hS : NoAlias n S) {δ : Fin 2 → ℝ}
    (hδ : ∀ d, δ d ≠ 0) (N : ℝ) {nu : Dissip.Nu} (hnu : Nu.Ok nu) {F H : Fld (Fin 2)} (hF : RealField S F) (hH : RealField S H) {T : ℝ} (hT : 0 ≤ T)
    {rot b : ℝ → Fld (Fin 2)} (hrot : FlowStrat S δ N nu F H T rot b) :
    SimulationsRobust S (freqVisc δ nu) (forced ![F, H] (tendStrat n S δ N)) T fun t => ![rot t, b t] := by
  have hout : ∀ (u : Fin 2 → Fld (Fin 2)) v k, k ∉ S → forced ![F, H] (tendStrat n S δ N) u v k = 0 :=
    forced_out (fun u v k hk => by fin_cases v <;> simp [tendStrat, ns2dStrat, hk]) fun v k hk => by
      fin_cases v
      exacts [hF.2 k hk, hH.2 k hk]
  refine robust_diss S δ hnu (smooth_forced (smooth_tendStrat n S δ N) ![F, H]) hout hT (fun t ht v k hk => by
      have := hrot.real t ht
      fin_cases v
      exacts [this.1.2 k hk, this.2.2 k hk])
    fun t ht v k hk => ?_
  obtain ⟨h1, h2⟩ := C57_ns2d_strat hn hS hδ N (b t) (velocity2_ux2 hδ (rot t)) hk
  obtain ⟨d1, d2⟩ := hrot.eq t ht _ _ (velocity2_ux2 hδ (rot t)) k hk
  fin_cases v
  · refine d1.congr_deriv ?_
    simp only [forced, tendStrat, Fin.zero_eta, Matrix.cons_val_zero, Matrix.cons_val_one, if_true, h1]
    ring
  · refine d2.congr_deriv ?_
    simp only [forced, tendStrat, Fin.mk_one, Matrix.cons_val_zero, Matrix.cons_val_one, one_ne_zero, if_false, h2]
    ring

/-- C87, sw1l with rounding errors, as long as the equations have a solution. -/
theorem C87_sw1l_rounding {p : Sw1l.Par} {n : Fin 2 → ℕ} {S : Finset (Fin 2 → ℤ)} (hn : ∀ d, 0 < n d) (hS : NoAlias n S) {nu : Dissip.Nu}
    (hnu : Nu.Ok nu) {F : Fin 3 → Fld (Fin 2)} (hF : ∀ v, RealField S (F v)) {T : ℝ} (hT : 0 ≤ T) {u : ℝ → Fin 3 → Fld (Fin 2)}
    (hu : FlowSw p S nu F T u) : SimulationsRobust S (freqVisc p.δ nu) (forced F (tendSw1l p n S)) T u :=
  robust_diss S p.δ hnu (smooth_forced (smooth_sw1l p n S) F)
    (forced_out (fun u v k hk => sw1l_out u v k hk) fun v k hk => (hF v).2 k hk) hT
    (fun t ht v k hk => (hu.real t ht v).2 k hk) (fun t ht v k hk => hu.toEq hn hS t ht v k hk)

/-- A case which meets the hypotheses. -/
example : ∃ rot : ℝ → Fld (Fin 2), rot 0 = (fun k => if k ∈ box then 1 else 0) ∧
    SimulationsRobust box (freqVisc (fun _ => 1) ⟨1, 0, 1, 0⟩)
      (forced (fun _ : Unit => fun k => if k ∈ box then 1 else 0) (tend2d (fun _ => 4) box (fun _ => 1) 1)) 10 fun t _ => rot t := by
  obtain ⟨rot, h0, h, -⟩ := C87_ns2d (n := fun _ => 4) (fun _ => by norm_num) box_noAlias (δ := fun _ => 1) (fun _ => one_ne_zero) 1
    (nu := ⟨1, 0, 1, 0⟩) ⟨by norm_num, by norm_num, by norm_num, rfl⟩ box_real box_real (T := 10) (by norm_num)
  exact ⟨rot, h0, C87_ns2d_rounding (fun _ => by norm_num) box_noAlias (fun _ => one_ne_zero) 1
    ⟨by norm_num, by norm_num, by norm_num, rfl⟩ box_real (by norm_num) h⟩

end

end Verif.EndToEnd
