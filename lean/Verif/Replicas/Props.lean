import Verif.Replicas.LemmasSw
import Verif.Symmetry.PropsCfl
import Verif.Symmetry.PropsPlate
import Verif.Symmetry.PropsSw1l
import Verif.EndToEnd.PropsMore

/-!
# C107: a simulation in a box made of copies of a smaller box

When the initial state and the force in a large box are made of `m d` copies, in each direction `d`, of those of a small box, the simulation
in the large box is made of copies of the simulation in the small box.
-/

set_option linter.unusedSectionVars false

namespace Verif.Replicas

open Verif.Fourier Verif.Vectors Verif.Energy Verif.Galerkin Verif.Schemes Verif.EndToEnd Verif.Symmetry Finset

noncomputable section

variable {D V : Type*} [Fintype D] [DecidableEq D]

/-- C107, meaning of `copies`: the value of the field of the large box at a point is the value of the field of the small box, continued
periodically, at this point. -/
theorem C107_copies {m : D → ℕ} (hm : ∀ d, 0 < m d) {S S' : Finset (D → ℤ)} (hS : SameWaves m S S') (δ : D → ℝ) (u : V → Fld D) (v : V)
    (x : D → ℝ) : value S' δ (copies m u v) x = value S (small m δ) (u v) x := by
  simp only [value]
  rw [copies_eq, sum_copy hm hS]
  · refine sum_congr rfl fun k _ => ?_
    rw [copy_times hm]
    simp only [wave_times]
  · intro q hq
    rw [copy_out _ hq, zero_mul]

/-- C107, meaning of `copies` (the period): the fields `copies` of the large box do not change when the point is moved by a length of the
small box, `2 pi / (m d δ d)`, in one direction. -/
theorem C107_copies_period {m : D → ℕ} (hm : ∀ d, 0 < m d) {S S' : Finset (D → ℤ)} (hS : SameWaves m S S') {δ : D → ℝ} (hδ : ∀ d, δ d ≠ 0)
    (u : V → Fld D) (v : V) (x : D → ℝ) (e : D) :
    value S' δ (copies m u v) (Function.update x e (x e + 2 * Real.pi / (m e * δ e))) = value S' δ (copies m u v) x := by
  rw [C107_copies hm hS, C107_copies hm hS]
  refine sum_congr rfl fun k _ => ?_
  have h1 : ∑ d, small m δ d * k d * Function.update x e (x e + 2 * Real.pi / (m e * δ e)) d
      = ∑ d, small m δ d * k d * x d + 2 * Real.pi * k e := by
    rw [← add_sum_erase _ _ (mem_univ e), ← add_sum_erase univ (fun d => small m δ d * k d * x d) (mem_univ e), Function.update_self,
      sum_congr rfl fun d hd => by rw [Function.update_of_ne (ne_of_mem_erase hd)]]
    have hs : small m δ e * k e * (x e + 2 * Real.pi / (m e * δ e)) = small m δ e * k e * x e + 2 * Real.pi * k e := by
      have h1 : (m e : ℝ) ≠ 0 := by exact_mod_cast (hm e).ne'
      have h2 := hδ e
      simp only [small]
      field_simp
    rw [hs]
    ring
  rw [h1]
  congr 1
  push_cast
  rw [mul_add, Complex.exp_add]
  have : Complex.I * (2 * Real.pi * k e) = k e * (2 * Real.pi * Complex.I) := by ring
  rw [this, Complex.exp_int_mul_two_pi_mul_I, mul_one]

/-- C107, the truncations: with `m d` times more points in each direction, the spherical truncation with the same coefficient keeps the same
waves of the small box; so does the truncation of each direction when its limit is multiplied by `m d`. -/
theorem C107_truncations {m : D → ℕ} (hm : ∀ d, 0 < m d) {S S' : Finset (D → ℤ)} {δ : D → ℝ} {n : D → ℕ} {x : D} {coef : ℝ} :
    ((∀ k, k ∈ S ↔ keptSpherical (small m δ) n x coef k) → (∀ k, k ∈ S' ↔ keptSpherical δ (fun d => m d * n d) x coef k) → SameWaves m S S') ∧
      ∀ a b : D → ℤ, (∀ d, m d * a d ≤ b d) → (∀ d, b d < m d * (a d + 1)) →
        SameWaves m (Fintype.piFinset fun d => Icc (-a d) (a d)) (Fintype.piFinset fun d => Icc (-b d) (b d)) := by
  constructor
  · intro h h' k
    rw [h, h']
    simp only [keptSpherical, wave_times, small]
    push_cast
    rw [show coef * δ x * (m x * n x) / 2 = coef * (m x * δ x) * n x / 2 by ring]
  · intro a b hab hba k
    simp only [Fintype.mem_piFinset, mem_Icc, times]
    refine forall_congr' fun d => ?_
    have hd : (0 : ℤ) < m d := by exact_mod_cast hm d
    have h1 := hab d
    have h2 := hba d
    constructor
    · rintro ⟨h3, h4⟩
      have h5 : (m d : ℤ) * k d < m d * (a d + 1) := lt_of_le_of_lt h4 h2
      have h6 : (m d : ℤ) * -k d < m d * (a d + 1) := by rw [mul_neg]; linarith
      have h7 := lt_of_mul_lt_mul_left h5 hd.le
      have h8 := lt_of_mul_lt_mul_left h6 hd.le
      constructor <;> omega
    · rintro ⟨h3, h4⟩
      have h5 : (m d : ℤ) * k d ≤ m d * a d := mul_le_mul_of_nonneg_left h4 hd.le
      have h6 : (m d : ℤ) * -a d ≤ m d * k d := mul_le_mul_of_nonneg_left h3 hd.le
      rw [mul_neg] at h6
      constructor <;> linarith

section two

variable {m n n' : Fin 2 → ℕ} {S S' G G' : Finset (Fin 2 → ℤ)}

/-- C107 (ns2d): the run in the large box, from copies of the vorticity and with copies of the force of the small box, is made of copies of
the run in the small box. -/
theorem C107_ns2d (hm : ∀ d, 0 < m d) (hn : ∀ d, 0 < n d) (hn' : ∀ d, 0 < n' d) (hA : NoAlias n S) (hA' : NoAlias n' S') (hS : SameWaves m S S')
    (hG : SameWaves m G G') (δ : Fin 2 → ℝ) (beta : ℝ) (nu : Dissip.Nu) {c c' : Numerics (Fin 2) Unit} (hc : CopyNumerics m c c')
    (hdt : ∀ k, c.dt k ≠ 0) (F : ℕ → Unit → Fld (Fin 2)) (rot0 : Unit → Fld (Fin 2)) (k : ℕ) :
    runNs2d n' S' G' δ beta nu c' (fun j => copies m (F j)) (copies m rot0) k
      = copies m (runNs2d n S G (small m δ) beta nu c F rot0 k) :=
  run_copy hm hS hG δ nu (P := id) (P' := id) (fun _ => rfl) (id_onArrays G) (id_onArrays G')
    (fun u _ k hk => (ns2d_copy hm hS hn hn' hA hA' δ beta (u ())).1 k hk) (fun u _ q hq => (ns2d_copy hm hS hn hn' hA hA' δ beta (u ())).2 q hq)
    (fun u v k hk => by simp [tend2d, ns2d, hk]) (fun u v k hk => by simp [tend2d, ns2d, hk]) hc hdt F rot0 k

/-- C107 (ns2d.strat). -/
theorem C107_ns2d_strat (hm : ∀ d, 0 < m d) (hn : ∀ d, 0 < n d) (hn' : ∀ d, 0 < n' d) (hA : NoAlias n S) (hA' : NoAlias n' S')
    (hS : SameWaves m S S') (hG : SameWaves m G G') (δ : Fin 2 → ℝ) (N : ℝ) (nu : Dissip.Nu) {c c' : Numerics (Fin 2) (Fin 2)}
    (hc : CopyNumerics m c c') (hdt : ∀ k, c.dt k ≠ 0) (F : ℕ → Fin 2 → Fld (Fin 2)) (u0 : Fin 2 → Fld (Fin 2)) (k : ℕ) :
    runStrat2d n' S' G' δ N nu c' (fun j => copies m (F j)) (copies m u0) k = copies m (runStrat2d n S G (small m δ) N nu c F u0 k) := by
  refine run_copy hm hS hG δ nu (P := id) (P' := id) (fun _ => rfl) (id_onArrays G) (id_onArrays G') (fun u v k hk => ?_) (fun u v q hq hM => ?_)
    (fun u v k hk => by fin_cases v <;> simp [tendStrat, ns2dStrat, hk]) (fun u v k hk => by fin_cases v <;> simp [tendStrat, ns2dStrat, hk])
    hc hdt F u0 k
  · obtain ⟨h0, h1⟩ := (strat_copy hm hS hn hn' hA hA' δ N (u 0) (u 1)).1 k hk
    fin_cases v
    · exact h0
    · exact h1
  · obtain ⟨h0, h1⟩ := (strat_copy hm hS hn hn' hA hA' δ N (u 0) (u 1)).2 q hq hM
    fin_cases v
    · exact h0
    · exact h1

/-- C107 (ns2d.bouss). -/
theorem C107_ns2d_bouss (hm : ∀ d, 0 < m d) (hn : ∀ d, 0 < n d) (hn' : ∀ d, 0 < n' d) (hA : NoAlias n S) (hA' : NoAlias n' S')
    (hS : SameWaves m S S') (hG : SameWaves m G G') (δ : Fin 2 → ℝ) (nu : Dissip.Nu) {c c' : Numerics (Fin 2) (Fin 2)}
    (hc : CopyNumerics m c c') (hdt : ∀ k, c.dt k ≠ 0) (F : ℕ → Fin 2 → Fld (Fin 2)) (u0 : Fin 2 → Fld (Fin 2)) (k : ℕ) :
    run S' G' δ nu id (tendBouss n' S' δ) c' (fun j => copies m (F j)) (copies m u0) k
      = copies m (run S G (small m δ) nu id (tendBouss n S (small m δ)) c F u0 k) := by
  rw [tendBouss_eq hn hA.distinct, tendBouss_eq hn' hA'.distinct]
  exact C107_ns2d_strat hm hn hn' hA hA' hS hG δ 0 nu hc hdt F u0 k

/-- C107 (sw1l). -/
theorem C107_sw1l (hm : ∀ d, 0 < m d) (hn : ∀ d, 0 < n d) (hn' : ∀ d, 0 < n' d) (hA : NoAlias n S) (hA' : NoAlias n' S') (hS : SameWaves m S S')
    (hG : SameWaves m G G') (p : Sw1l.Par) (nu : Dissip.Nu) {c c' : Numerics (Fin 2) (Fin 3)} (hc : CopyNumerics m c c')
    (hdt : ∀ k, c.dt k ≠ 0) (F : ℕ → Fin 3 → Fld (Fin 2)) (u0 : Fin 3 → Fld (Fin 2)) (k : ℕ) :
    runSw1l p n' S' G' nu c' (fun j => copies m (F j)) (copies m u0) k
      = copies m (runSw1l { p with δ := small m p.δ } n S G nu c F u0 k) :=
  run_copy hm hS hG p.δ nu (P := id) (P' := id) (fun _ => rfl) (id_onArrays G) (id_onArrays G')
    (fun u v k hk => (sw1l_copy hm hS hn hn' hA hA' p u v).1 k hk) (fun u v q hq => (sw1l_copy hm hS hn hn' hA hA' p u v).2 q hq)
    (fun u v k hk => tendSw1l_out _ u v hk) (fun u v k hk => tendSw1l_out _ u v hk) hc hdt F u0 k

/-- C107 (sw1l.modified). -/
theorem C107_sw1l_modified (hm : ∀ d, 0 < m d) (hn : ∀ d, 0 < n d) (hn' : ∀ d, 0 < n' d) (hA : NoAlias n S) (hA' : NoAlias n' S')
    (hS : SameWaves m S S') (hG : SameWaves m G G') (p : Sw1l.Par) (hδ : ∀ d, p.δ d ≠ 0) (nu : Dissip.Nu) {c c' : Numerics (Fin 2) (Fin 3)}
    (hc : CopyNumerics m c c') (hdt : ∀ k, c.dt k ≠ 0) (F : ℕ → Fin 3 → Fld (Fin 2)) (u0 : Fin 3 → Fld (Fin 2)) (k : ℕ) :
    runModified p n' S' G' nu c' (fun j => copies m (F j)) (copies m u0) k
      = copies m (runModified { p with δ := small m p.δ } n S G nu c F u0 k) :=
  run_copy hm hS hG p.δ nu (P := id) (P' := id) (fun _ => rfl) (id_onArrays G) (id_onArrays G')
    (fun u v k hk => (modified_copy hm hS hn hn' hA hA' p hδ u v).1 k hk) (fun u v q hq => (modified_copy hm hS hn hn' hA hA' p hδ u v).2 q hq)
    (fun u v k hk => tendModified_out _ u v hk) (fun u v k hk => tendModified_out _ u v hk) hc hdt F u0 k

/-- C107 (plate2d). -/
theorem C107_plate2d (hm : ∀ d, 0 < m d) {H H' : Finset (Fin 2 → ℤ)} (h : Half n S H) (h' : Half n' S' H') (hS : SameWaves m S S')
    (hG : SameWaves m G G') {δ : Fin 2 → ℝ} (hδ : ∀ d, δ d ≠ 0) (nu : Dissip.Nu) {c c' : Numerics (Fin 2) (Fin 2)} (hc : CopyNumerics m c c')
    (hdt : ∀ k, c.dt k ≠ 0) (F : ℕ → Fin 2 → Fld (Fin 2)) (u0 : Fin 2 → Fld (Fin 2)) (k : ℕ) :
    runPlate n' S' H' G' δ nu c' (fun j => copies m (F j)) (copies m u0) k = copies m (runPlate n S H G (small m δ) nu c F u0 k) :=
  runFreq_copy hm hS hG (fun v k => by simp only [freqPlate, waveSq_times]) (P := id) (P' := id) (fun _ => rfl) (id_onArrays G) (id_onArrays G')
    (fun u v k hk => (plate_copy hm hS h h' hδ u v).1 k hk) (fun u v q hq => (plate_copy hm hS h h' hδ u v).2 q hq)
    (fun u v k hk => tendPlate_out u v hk) (fun u v k hk => tendPlate_out u v hk) hc hdt F u0 k

end two

section one

/-- C107 (burgers1d and burgers1d.skew_sym; the two runs can use different forms). -/
theorem C107_burgers (skew skew' : Bool) {m : Unit → ℕ} (hm : ∀ d, 0 < m d) {nx nx' : ℕ} (hn : 1 < nx) (hn' : 1 < nx')
    {S S' G G' : Finset (Unit → ℤ)} (h3 : ∀ k ∈ S, 3 * |k ()| < nx) (h3' : ∀ k ∈ S', 3 * |k ()| < nx') (hS : SameWaves m S S')
    (hG : SameWaves m G G') (δ : ℝ) (nu : Dissip.Nu) {c c' : Numerics Unit Unit} (hc : CopyNumerics m c c') (hdt : ∀ k, c.dt k ≠ 0)
    (F : ℕ → Unit → Fld Unit) (u0 : Unit → Fld Unit) (k : ℕ) :
    run S' G' (fun _ => δ) nu id (tendBurgers skew' nx' S' δ) c' (fun j => copies m (F j)) (copies m u0) k
      = copies m (run S G (fun _ => m () * δ) nu id (tendBurgers skew nx S (m () * δ)) c F u0 k) := by
  have hsk : ∀ s, tendBurgers s nx S (m () * δ) = tendBurgers false nx S (m () * δ) := fun s => by
    cases s
    · rfl
    · exact tendBurgers_eq hn h3 _
  have hsk' : ∀ s, tendBurgers s nx' S' δ = tendBurgers false nx' S' δ := fun s => by
    cases s
    · rfl
    · exact tendBurgers_eq hn' h3' _
  have hout : ∀ (nx : ℕ) (S : Finset (Unit → ℤ)) (δ : ℝ) (u : Unit → Fld Unit) (v : Unit), ∀ k ∉ S, tendBurgers false nx S δ u v k = 0 :=
    fun nx S δ u v k hk => by
      have : ¬ Burgers.kept nx S k := fun h => hk h.1
      simp [tendBurgers, Burgers.convective, this]
  have hval : ∀ (u : Unit → Fld Unit) (v : Unit), ∀ q ∈ S', tendBurgers false nx' S' δ (copies m u) v q
      = -copy m (advect S (small m fun _ => δ) (fun _ => u ()) (u ())) q := fun u v q hq => by
    rw [← advect_copy hm hS (fun _ => δ) (u := fun _ => u ()) (u' := fun _ => copy m (u ())) (fun _ => rfl)]
    exact (C57_burgers (by omega) (burgers_noAlias h3') δ (copy m (u ())) (burgers_kept hn' h3' hq)).1
  rw [hsk, hsk']
  refine run_copy hm hS hG (fun _ => δ) nu (P := id) (P' := id) (fun _ => rfl) (id_onArrays G) (id_onArrays G') (fun u v k hk => ?_)
    (fun u v q hq hM => ?_) (hout nx S _) (hout nx' S' _) hc hdt F u0 k
  · rw [hval u v _ ((hS k).2 hk), copy_times hm]
    exact (C57_burgers (by omega) (burgers_noAlias h3) (m () * δ) (u ()) (burgers_kept hn h3 hk)).1.symm
  · rw [hval u v q hq, copy_out _ hM, neg_zero]

end one

section three

variable {m n n' : Fin 3 → ℕ} {S S' G G' : Finset (Fin 3 → ℤ)}

/-- C107 (ns3d), with any projection and rotation. -/
theorem C107_ns3d (hm : ∀ d, 0 < m d) (hn : ∀ d, 0 < n d) (hn' : ∀ d, 0 < n' d) (hA : NoAlias n S) (hA' : NoAlias n' S') (hS : SameWaves m S S')
    (hG : SameWaves m G G') (δ : Fin 3 → ℝ) (f : Option ℝ) (p : Projection) (noVz : Bool) (nu : Dissip.Nu) {c c' : Numerics (Fin 3) (Fin 3)}
    (hc : CopyNumerics m c c') (hdt : ∀ k, c.dt k ≠ 0) (F : ℕ → Fin 3 → Fld (Fin 3)) (u0 : Fin 3 → Fld (Fin 3)) (k : ℕ) :
    runNs3d n' S' G' δ f p noVz nu c' (fun j => copies m (F j)) (copies m u0) k
      = copies m (runNs3d n S G (small m δ) f p noVz nu c F u0 k) := by
  refine run_copy hm hS hG δ nu (P := fun u => components fun k => (projectState p noVz (wave3 (small m δ) k) ⟨vec u k, none⟩).v)
    (P' := fun u => components fun k => (projectState p noVz (wave3 δ k) ⟨vec u k, none⟩).v) (project_copy hm δ p noVz) rfl rfl
    (fun u v k hk => ?_) (fun u v q hq hM => ?_)
    (fun u v k hk => by fin_cases v <;> simp [tend3d, components, ns3d, hk]) (fun u v k hk => by fin_cases v <;> simp [tend3d, components, ns3d, hk])
    hc hdt F u0 k
  · simp only [tend3d]
    rw [components_cv, components_cv, vec_copies, (ns3d_copy hm hS hn hn' hA hA' δ f p noVz (vec u)).1 k hk]
  · simp only [tend3d]
    rw [components_cv, vec_copies, (ns3d_copy hm hS hn hn' hA hA' δ f p noVz (vec u)).2 q hq hM, cv_zero]

/-- C107 (ns3d.strat; ns3d.bouss for `N = 0`). -/
theorem C107_ns3d_strat (hm : ∀ d, 0 < m d) (hn : ∀ d, 0 < n d) (hn' : ∀ d, 0 < n' d) (hA : NoAlias n S) (hA' : NoAlias n' S')
    (hS : SameWaves m S S') (hG : SameWaves m G G') (δ : Fin 3 → ℝ) (f : Option ℝ) (N : ℝ) (p : Projection) (noVz : Bool) (nu : Dissip.Nu)
    {c c' : Numerics (Fin 3) (Fin 4)} (hc : CopyNumerics m c c') (hdt : ∀ k, c.dt k ≠ 0) (F : ℕ → Fin 4 → Fld (Fin 3))
    (u0 : Fin 4 → Fld (Fin 3)) (k : ℕ) :
    runStrat3d n' S' G' δ f N p noVz nu c' (fun j => copies m (F j)) (copies m u0) k
      = copies m (runStrat3d n S G (small m δ) f N p noVz nu c F u0 k) := by
  refine run_copy hm hS hG δ nu (P := fun u => components4 fun k => projectState p noVz (wave3 (small m δ) k) (modeState u k))
    (P' := fun u => components4 fun k => projectState p noVz (wave3 δ k) (modeState u k)) (project4_copy hm δ p noVz) rfl rfl
    (fun u v k hk => ?_) (fun u v q hq hM => ?_)
    (fun u v k hk => by fin_cases v <;> simp [tend3dStrat, components4, ns3dStrat, hk])
    (fun u v k hk => by fin_cases v <;> simp [tend3dStrat, components4, ns3dStrat, hk]) hc hdt F u0 k
  all_goals have h4 : v = 3 ∨ ∃ d : Fin 3, v = d.castSucc := by fin_cases v; exacts [.inr ⟨0, rfl⟩, .inr ⟨1, rfl⟩, .inr ⟨2, rfl⟩, .inl rfl]
  · obtain ⟨h0, h1⟩ := (strat3_copy hm hS hn hn' hA hA' δ f N p noVz (fun k => (modeState u k).v) (u 3)).1 k hk
    simp only [tend3dStrat, mode_copies, copies_eq]
    rcases h4 with rfl | ⟨d, rfl⟩
    · exact congrArg (fun o => o.getD 0) h1
    · rw [components4_cv, components4_cv, h0]
  · obtain ⟨h0, h1⟩ := (strat3_copy hm hS hn hn' hA hA' δ f N p noVz (fun k => (modeState u k).v) (u 3)).2 q hq hM
    simp only [tend3dStrat, mode_copies, copies_eq]
    rcases h4 with rfl | ⟨d, rfl⟩
    · exact congrArg (fun o => o.getD 0) h1
    · rw [components4_cv, h0, cv_zero]

/-- C107 (observable form, ns3d): the velocity of a run from copies of a flow of the small box keeps the period of the small box, after any
number of steps and at every point. -/
theorem C107_period_kept (hm : ∀ d, 0 < m d) (hn : ∀ d, 0 < n d) (hn' : ∀ d, 0 < n' d) (hA : NoAlias n S) (hA' : NoAlias n' S')
    (hS : SameWaves m S S') (hG : SameWaves m G G') {δ : Fin 3 → ℝ} (hδ : ∀ d, δ d ≠ 0) (f : Option ℝ) (p : Projection) (noVz : Bool)
    (nu : Dissip.Nu) {c c' : Numerics (Fin 3) (Fin 3)} (hc : CopyNumerics m c c') (hdt : ∀ k, c.dt k ≠ 0) (F : ℕ → Fin 3 → Fld (Fin 3))
    (u0 : Fin 3 → Fld (Fin 3)) (k : ℕ) (v : Fin 3) (x : Fin 3 → ℝ) (e : Fin 3) :
    value S' δ (runNs3d n' S' G' δ f p noVz nu c' (fun j => copies m (F j)) (copies m u0) k v)
        (Function.update x e (x e + 2 * Real.pi / (m e * δ e)))
      = value S' δ (runNs3d n' S' G' δ f p noVz nu c' (fun j => copies m (F j)) (copies m u0) k v) x := by
  rw [C107_ns3d hm hn hn' hA hA' hS hG δ f p noVz nu hc hdt F u0 k]
  exact C107_copies_period hm hS hδ _ v x e

end three

/-! ### With the CFL condition -/

theorem gridPoint_small {m n : D → ℕ} (hm : ∀ d, 0 < m d) (δ : D → ℝ) (j : D → ℤ) :
    gridPoint (fun d => m d * n d) δ j = gridPoint n (small m δ) j := by
  funext d
  have h1 : (m d : ℝ) ≠ 0 := by exact_mod_cast (hm d).ne'
  simp only [gridPoint, small]
  push_cast
  by_cases h : δ d = 0
  · simp [h]
  · by_cases h2 : (n d : ℝ) = 0
    · simp [h2]
    · field_simp

theorem mesh_small {m n : D → ℕ} (δ : D → ℝ) (d : D) : mesh (fun d => m d * n d) δ d = mesh n (small m δ) d := by
  simp only [mesh, small]
  push_cast
  rw [div_div, div_div]
  congr 1
  ring

theorem peak_copy {m n : D → ℕ} (hm : ∀ d, 0 < m d) {G G' : Finset (D → ℤ)} (hG : SameWaves m G G') (δ : D → ℝ) (a : Fld D) :
    peak G' (fun d => m d * n d) δ (copy m a) = peak G n (small m δ) a := by
  have h : ∀ x, value G' δ (copy m a) x = value G (small m δ) a x := fun x => C107_copies hm hG δ (fun _ : Unit => a) () x
  simp only [peak, h, gridPoint_small hm]

/-- The same scheme, and phase shifts which are the same for the same waves; the time steps are not compared. -/
def CopyScheme (m : D → ℕ) (c c' : Numerics D V) : Prop :=
  c'.sc = c.sc ∧ c'.cfl = c.cfl ∧
    ∀ j k, c'.ps j (times m k) = c.ps j k ∧ c'.pa j (times m k) = c.pa j k ∧ c'.pb j (times m k) = c.pb j k

theorem follows_copy {X X' : Type*} {r : (ℕ → ℝ) → ℕ → X} {r' : (ℕ → ℝ) → ℕ → X'} {T : X → X'} {pick : X → ℝ → Except String ℝ}
    {pick' : X' → ℝ → Except String ℝ} (hr' : ∀ dt dt' k, (∀ j < k, dt j = dt' j) → r' dt k = r' dt' k)
    {dt dt' : ℕ → ℝ} {d0 : ℝ} (hT : ∀ k, r' dt k = T (r dt k)) (hp : ∀ x h, pick' (T x) h = pick x h)
    (h : Follows pick d0 dt (r dt)) (h' : Follows pick' d0 dt' (r' dt')) (j : ℕ) : dt' j = dt j ∧ r' dt' j = T (r dt j) := by
  have := follows_related (τ := 1) (T := T) (good := fun _ => True) (pick := pick) (pick' := pick') hr' (dt := dt) (dt' := dt') (d0 := d0)
    (by simpa only [one_mul] using hT) (fun _ => trivial) (fun x h d _ e => by rw [one_mul, one_mul, hp x h]; exact e) h (by rwa [one_mul]) j
  rwa [one_mul] at this

/-- C107 (ns2d with the CFL condition): with the same distance between the points, the two runs choose the same time steps and the run in
the large box is made of copies of the run in the small box. -/
theorem C107_ns2d_cfl {m n : Fin 2 → ℕ} {S S' G G' : Finset (Fin 2 → ℤ)} (hm : ∀ d, 0 < m d) (hn : ∀ d, 0 < n d) (hA : NoAlias n S)
    (hA' : NoAlias (fun d => m d * n d) S') (hS : SameWaves m S S') (hG : SameWaves m G G') {δ : Fin 2 → ℝ} (hδ : ∀ d, δ d ≠ 0) (beta : ℝ)
    (nu : Dissip.Nu) {CFL dtMax deltat0 : ℝ} (hC : 0 < CFL) (hM : 0 < dtMax) (h0 : 0 < deltat0) {c c' : Numerics (Fin 2) Unit}
    (hc : CopyScheme m c c') (F : ℕ → Unit → Fld (Fin 2)) (rot0 : Unit → Fld (Fin 2))
    (hf : Follows (pickNs2d n G (small m δ) CFL dtMax) deltat0 c.dt (runNs2d n S G (small m δ) beta nu c F rot0))
    (hf' : Follows (pickNs2d (fun d => m d * n d) G' δ CFL dtMax) deltat0 c'.dt
      (runNs2d (fun d => m d * n d) S' G' δ beta nu c' (fun j => copies m (F j)) (copies m rot0))) (j : ℕ) :
    c'.dt j = c.dt j ∧ runNs2d (fun d => m d * n d) S' G' δ beta nu c' (fun j => copies m (F j)) (copies m rot0) j
      = copies m (runNs2d n S G (small m δ) beta nu c F rot0 j) := by
  have hδs : ∀ d, small m δ d ≠ 0 := fun d => mul_ne_zero (by exact_mod_cast (hm d).ne') (hδ d)
  have hn' : ∀ d, 0 < m d * n d := fun d => Nat.mul_pos (hm d) (hn d)
  refine follows_copy (r := fun dt => runNs2d n S G (small m δ) beta nu (c.withDt dt) F rot0)
    (r' := fun dt => runNs2d (fun d => m d * n d) S' G' δ beta nu (c'.withDt dt) (fun m' => copies m (F m')) (copies m rot0)) (T := copies m)
    (dt := c.dt) (dt' := c'.dt) (fun dt dt' k h => run_congr S' G' _ _ _ _ c' _ _ dt dt' k h)
    (fun k => C107_ns2d hm hn hn' hA hA' hS hG δ beta nu (c := c) (c' := c'.withDt c.dt) ⟨hc.1, hc.2.1, rfl, hc.2.2⟩
      (fun k => (follows_pos hC hM h0 (pick2_eq hn G hδs CFL dtMax) hf k).ne') F rot0 k) (fun x h => ?_) hf hf' j
  rw [pick2_eq hn G hδs, pick2_eq hn' G' hδ]
  simp only [copies_eq, vel2_copy hm, peak_copy hm hG, mesh_small]

/-- C107 (ns3d with the CFL condition). -/
theorem C107_ns3d_cfl {m n : Fin 3 → ℕ} {S S' G G' : Finset (Fin 3 → ℤ)} (hm : ∀ d, 0 < m d) (hn : ∀ d, 0 < n d) (hA : NoAlias n S)
    (hA' : NoAlias (fun d => m d * n d) S') (hS : SameWaves m S S') (hG : SameWaves m G G') {δ : Fin 3 → ℝ} (hδ : ∀ d, δ d ≠ 0)
    (f : Option ℝ) (p : Projection) (noVz : Bool) (nu : Dissip.Nu) {CFL dtMax deltat0 : ℝ} (hC : 0 < CFL) (hM : 0 < dtMax) (h0 : 0 < deltat0)
    {c c' : Numerics (Fin 3) (Fin 3)} (hc : CopyScheme m c c') (F : ℕ → Fin 3 → Fld (Fin 3)) (u0 : Fin 3 → Fld (Fin 3))
    (hf : Follows (pickNs3d n G (small m δ) CFL dtMax id) deltat0 c.dt (runNs3d n S G (small m δ) f p noVz nu c F u0))
    (hf' : Follows (pickNs3d (fun d => m d * n d) G' δ CFL dtMax id) deltat0 c'.dt
      (runNs3d (fun d => m d * n d) S' G' δ f p noVz nu c' (fun j => copies m (F j)) (copies m u0))) (j : ℕ) :
    c'.dt j = c.dt j ∧ runNs3d (fun d => m d * n d) S' G' δ f p noVz nu c' (fun j => copies m (F j)) (copies m u0) j
      = copies m (runNs3d n S G (small m δ) f p noVz nu c F u0 j) := by
  have hδs : ∀ d, small m δ d ≠ 0 := fun d => mul_ne_zero (by exact_mod_cast (hm d).ne') (hδ d)
  have hn' : ∀ d, 0 < m d * n d := fun d => Nat.mul_pos (hm d) (hn d)
  refine follows_copy (r := fun dt => runNs3d n S G (small m δ) f p noVz nu (c.withDt dt) F u0)
    (r' := fun dt => runNs3d (fun d => m d * n d) S' G' δ f p noVz nu (c'.withDt dt) (fun m' => copies m (F m')) (copies m u0)) (T := copies m)
    (dt := c.dt) (dt' := c'.dt) (fun dt dt' k h => run_congr S' G' _ _ _ _ c' _ _ dt dt' k h)
    (fun k => C107_ns3d hm hn hn' hA hA' hS hG δ f p noVz nu (c := c) (c' := c'.withDt c.dt) ⟨hc.1, hc.2.1, rfl, hc.2.2⟩
      (fun k => (follows_pos hC hM h0 (pick3_eq hn G hδs CFL dtMax id) hf k).ne') F u0 k) (fun x h => ?_) hf hf' j
  rw [pick3_eq hn G hδs, pick3_eq hn' G' hδ]
  simp only [copies_eq, peak_copy hm hG, mesh_small, id]

/-! ### Examples -/

/-- A case of the theorems: two copies in the first direction of the flow with the vorticity `cos x`, 4 points in the small box and 8 in
the large one: the modes `±1` become `±2`, and the modes `±1` of the large box are kept by the truncation. -/
def exLarge : Finset (Fin 2 → ℤ) := {![1, 0], ![-1, 0], ![2, 0], ![-2, 0]}

example : (∀ d, 0 < (![2, 1] : Fin 2 → ℕ) d) ∧ NoAlias (fun _ : Fin 2 => 4) exPair ∧ NoAlias (fun _ : Fin 2 => 8) exLarge ∧
    SameWaves ![2, 1] exPair exLarge ∧ copies ![2, 1] exCos () ![2, 0] = 1 / 2 ∧ copies ![2, 1] exCos () ![1, 0] = 0 ∧
    CopyNumerics ![2, 1] exNum exNum := by
  refine ⟨by decide, exPair_noAlias, ⟨by decide, by unfold Distinct; decide⟩, fun k => ?_, ?_, ?_, rfl, rfl, rfl, fun _ _ => ⟨rfl, rfl, rfl⟩⟩
  · simp only [exPair, exLarge, mem_insert, mem_singleton, funext_iff, Fin.forall_fin_two, times, Matrix.cons_val_zero, Matrix.cons_val_one,
      Matrix.cons_val_fin_one]
    push_cast
    omega
  · simp only [copies]
    rw [if_pos (by decide)]
    simp only [exCos]
    rw [if_pos (by decide)]
  · simp only [copies]
    rw [if_neg (by decide)]

/-- A case of the theorems in three dimensions: eight copies, 4 points in each direction of the small box and 8 in the large one. -/
example : NoAlias (fun _ : Fin 3 => 4) (Fintype.piFinset fun _ => Icc (-1) 1) ∧ NoAlias (fun _ : Fin 3 => 8) (Fintype.piFinset fun _ => Icc (-2) 2) ∧
    SameWaves (fun _ : Fin 3 => 2) (Fintype.piFinset fun _ => Icc (-1) 1) (Fintype.piFinset fun _ => Icc (-2) 2) := by
  refine ⟨noAlias_of_small _ _ fun k hk d => ?_, noAlias_of_small _ _ fun k hk d => ?_, ?_⟩
  · have := abs_le.2 (mem_Icc.1 (Fintype.mem_piFinset.1 hk d))
    push_cast
    omega
  · have := abs_le.2 (mem_Icc.1 (Fintype.mem_piFinset.1 hk d))
    push_cast
    omega
  · exact (C107_truncations (S := ∅) (S' := ∅) (δ := fun _ => 1) (n := fun _ => 4) (x := (0 : Fin 3)) (coef := 1) (fun _ => by norm_num)).2
      (fun _ => 1) (fun _ => 2) (fun _ => by norm_num) fun _ => by norm_num

/-- A case of the theorem for the plates: four copies, 10 points in each direction of the small box and 20 in the large one. -/
example : Half (fun _ => 10) exS2 exS4 ∧ Half (fun _ => 20) exS4 (Fintype.piFinset fun _ => Icc (-8) 8) ∧ SameWaves (fun _ : Fin 2 => 2) exS2 exS4 := by
  have hh : ∀ a b n : ℤ, ∀ N : ℕ, (N : ℤ) = n → 4 * a < n → 2 * b ≤ n → 2 * a = b → 0 < n →
      Half (fun _ => N) (Fintype.piFinset fun _ => Icc (-a) a) (Fintype.piFinset fun _ => Icc (-b) b) := by
    intro a b n N hN h4 h2 hab h0
    refine ⟨fun _ => by omega, fun k hk d => ?_, fun k hk d => ?_, fun p hp q hq => ?_⟩
    · have : |k d| ≤ a := abs_le.2 (mem_Icc.1 (Fintype.mem_piFinset.1 hk d))
      omega
    · have : |k d| ≤ b := abs_le.2 (mem_Icc.1 (Fintype.mem_piFinset.1 hk d))
      omega
    · refine Fintype.mem_piFinset.2 fun d => ?_
      have a := mem_Icc.1 (Fintype.mem_piFinset.1 hp d)
      have b := mem_Icc.1 (Fintype.mem_piFinset.1 hq d)
      rw [mem_Icc, Pi.add_apply]
      omega
  refine ⟨hh 2 4 10 10 rfl (by norm_num) (by norm_num) (by norm_num) (by norm_num), hh 4 8 20 20 rfl (by norm_num) (by norm_num) (by norm_num)
    (by norm_num), ?_⟩
  exact (C107_truncations (S := ∅) (S' := ∅) (δ := fun _ => 1) (n := fun _ => 4) (x := (0 : Fin 2)) (coef := 1) (fun _ => by norm_num)).2
      (fun _ => 2) (fun _ => 4) (fun _ => by norm_num) fun _ => by norm_num

end

end Verif.Replicas
