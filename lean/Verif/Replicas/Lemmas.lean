import Verif.Replicas.Spec
import Verif.Symmetry.Mirror3
import Mathlib.Tactic

/-! # C107: lemmas -/

set_option linter.unusedSectionVars false

namespace Verif.Replicas

open Verif.Fourier Verif.Vectors Verif.Energy Verif.Galerkin Verif.Schemes Verif.EndToEnd Verif.Symmetry Finset

noncomputable section

variable {D V : Type*} [Fintype D] [DecidableEq D] {m : D → ℕ} {S S' : Finset (D → ℤ)}

/-- One field. -/
def copy (m : D → ℕ) (a : Fld D) : Fld D := fun q => if ∀ d, (m d : ℤ) ∣ q d then a fun d => q d / m d else 0

theorem copies_eq (u : V → Fld D) (v : V) : copies m u v = copy m (u v) := rfl

/-- The modes of the large box which are modes of the small box. -/
def Mult (m : D → ℕ) (q : D → ℤ) : Prop := ∃ k, q = times m k

theorem times_div (hm : ∀ d, 0 < m d) (k : D → ℤ) : (fun d => times m k d / m d) = k := by
  funext d
  have : (m d : ℤ) ≠ 0 := by exact_mod_cast (hm d).ne'
  simp only [times]
  rw [mul_comm, Int.mul_ediv_cancel _ this]

theorem times_dvd (k : D → ℤ) (d : D) : (m d : ℤ) ∣ times m k d := Dvd.intro _ rfl

theorem times_inj (hm : ∀ d, 0 < m d) {k q : D → ℤ} (h : times m k = times m q) : k = q := by
  rw [← times_div hm k, ← times_div hm q, h]

theorem times_add (k q : D → ℤ) : times m (k + q) = times m k + times m q := by
  funext d; simp only [times, Pi.add_apply]; ring

theorem mult_iff (q : D → ℤ) : (∀ d, (m d : ℤ) ∣ q d) ↔ Mult m q := by
  constructor
  · intro h
    refine ⟨fun d => q d / m d, funext fun d => ?_⟩
    simp only [times]
    rw [Int.mul_ediv_cancel' (h d)]
  · rintro ⟨k, rfl⟩ d
    exact times_dvd k d

theorem copy_times (hm : ∀ d, 0 < m d) (a : Fld D) (k : D → ℤ) : copy m a (times m k) = a k := by
  simp only [copy]
  rw [if_pos fun d => times_dvd k d, times_div hm]

theorem copy_out (a : Fld D) {q : D → ℤ} (h : ¬Mult m q) : copy m a q = 0 := by
  simp only [copy]
  rw [if_neg fun h' => h ((mult_iff q).1 h')]

theorem eq_copy (hm : ∀ d, 0 < m d) {b a : Fld D} (h : ∀ k, b (times m k) = a k) (h0 : ∀ q, ¬Mult m q → b q = 0) : b = copy m a := by
  funext q
  by_cases hq : Mult m q
  · obtain ⟨k, rfl⟩ := hq
    rw [copy_times hm, h]
  · rw [copy_out a hq, h0 q hq]

theorem sum_copy (hm : ∀ d, 0 < m d) (hS : SameWaves m S S') {f : (D → ℤ) → ℂ} (h0 : ∀ q, ¬Mult m q → f q = 0) :
    ∑ q ∈ S', f q = ∑ k ∈ S, f (times m k) := by
  have hsub : S.image (times m) ⊆ S' := by
    intro q hq
    obtain ⟨k, hk, rfl⟩ := mem_image.1 hq
    exact (hS k).2 hk
  rw [← sum_image (f := f) fun a _ b _ h => times_inj hm h]
  refine (sum_subset hsub fun q hq hn => h0 q ?_).symm
  rintro ⟨k, rfl⟩
  exact hn (mem_image.2 ⟨k, (hS k).1 hq, rfl⟩)

theorem mult_add {p q : D → ℤ} (hp : Mult m p) (hq : Mult m q) : Mult m (p + q) := by
  obtain ⟨k, rfl⟩ := hp
  obtain ⟨l, rfl⟩ := hq
  exact ⟨k + l, (times_add k l).symm⟩

theorem exact_copy (hm : ∀ d, 0 < m d) (hS : SameWaves m S S') (a b : Fld D) :
    exactProduct S' (copy m a) (copy m b) = copy m (exactProduct S a b) := by
  refine eq_copy hm (fun k => ?_) fun q hq => ?_
  · simp only [exactProduct]
    rw [sum_copy hm hS]
    · refine sum_congr rfl fun p _ => ?_
      rw [sum_copy hm hS]
      · refine sum_congr rfl fun q _ => ?_
        rw [copy_times hm, copy_times hm, ← times_add]
        by_cases h : p + q = k
        · rw [if_pos h, if_pos (by rw [h])]
        · rw [if_neg h, if_neg fun e => h (times_inj hm e)]
      · intro q hq
        rw [copy_out b hq, mul_zero, ite_self]
    · intro p hp
      refine sum_eq_zero fun q _ => ?_
      rw [copy_out a hp, zero_mul, ite_self]
  · refine sum_eq_zero fun p _ => sum_eq_zero fun r _ => ?_
    split
    · rename_i h
      by_cases hp : Mult m p
      · by_cases hr : Mult m r
        · exact absurd (h ▸ mult_add hp hr) hq
        · rw [copy_out b hr, mul_zero]
      · rw [copy_out a hp, zero_mul]
    · rfl

theorem mul_copy (hm : ∀ d, 0 < m d) {c' c : Fld D} (hc : ∀ k, c' (times m k) = c k) (a : Fld D) :
    (fun q => c' q * copy m a q) = copy m fun k => c k * a k :=
  eq_copy hm (fun k => by rw [copy_times hm, hc]) fun q hq => by rw [copy_out a hq, mul_zero]

theorem wave_times (δ : D → ℝ) (k : D → ℤ) (d : D) : δ d * (times m k d : ℝ) = small m δ d * k d := by
  simp only [times, small]
  push_cast
  ring

theorem pd_copy (hm : ∀ d, 0 < m d) (δ : D → ℝ) (d : D) (a : Fld D) : pd δ d (copy m a) = copy m (pd (small m δ) d a) :=
  mul_copy hm (c' := fun q => Complex.I * ((δ d * q d : ℝ) : ℂ)) (fun k => by simp only [wave_times]) a

theorem advect_copy (hm : ∀ d, 0 < m d) (hS : SameWaves m S S') (δ : D → ℝ) {u : D → Fld D} {u' : D → Fld D} (hu : ∀ d, u' d = copy m (u d))
    (a : Fld D) : advect S' δ u' (copy m a) = copy m (advect S (small m δ) u a) := by
  refine eq_copy hm (fun k => ?_) fun q hq => ?_ <;> simp only [advect]
  · refine sum_congr rfl fun d _ => ?_
    rw [hu, pd_copy hm, exact_copy hm hS, copy_times hm]
  · refine sum_eq_zero fun d _ => ?_
    rw [hu, pd_copy hm, exact_copy hm hS, copy_out _ hq]

theorem waveSq_times (δ : D → ℝ) (k : D → ℤ) : waveSq δ (times m k) = waveSq (small m δ) k := by
  simp only [waveSq, wave_times]

/-- The transformation as a map of the modes. -/
def copyMap (V : Type*) (m : D → ℕ) : Map V D V D :=
  ⟨fun v q => if ∀ d, (m d : ℤ) ∣ q d then some (v, fun d => q d / m d) else none, fun _ _ => 1⟩

theorem copyMap_app (u : V → Fld D) : (copyMap V m).app u = copies m u := by
  funext v q
  simp only [Map.app, copyMap, copies]
  split <;> simp

theorem copyMap_src (v : V) (q : D → ℤ) (i : V × (D → ℤ)) (h : (copyMap V m).src v q = some i) : v = i.1 ∧ q = times m i.2 := by
  simp only [copyMap] at h
  split at h
  · rename_i hd
    cases h
    refine ⟨rfl, funext fun d => ?_⟩
    simp only [times]
    rw [Int.mul_ediv_cancel' (hd d)]
  · cases h

theorem runFreq_copy (hm : ∀ d, 0 < m d) {G G' : Finset (D → ℤ)} (hS : SameWaves m S S') (hG : SameWaves m G G') {freq freq' : V → Fld D}
    (hf : ∀ v k, freq' v (times m k) = freq v k) {P P' : (V → Fld D) → V → Fld D} (hP : ∀ u, P' (copies m u) = copies m (P u))
    {project : Arr (V × G) → Arr (V × G)} (hp : project = onArrays G P) {project' : Arr (V × G') → Arr (V × G')} (hp' : project' = onArrays G' P')
    {tend tend' : (V → Fld D) → V → Fld D} (ht : ∀ u v, ∀ k ∈ S, tend' (copies m u) v (times m k) = tend u v k)
    (hz : ∀ u v, ∀ q ∈ S', ¬Mult m q → tend' (copies m u) v q = 0) (ht0 : ∀ u v, ∀ k ∉ S, tend u v k = 0)
    (ht0' : ∀ u v, ∀ k ∉ S', tend' u v k = 0) {c c' : Numerics D V} (hc : CopyNumerics m c c') (hdt : ∀ k, c.dt k ≠ 0)
    (F : ℕ → V → Fld D) (u0 : V → Fld D) (k : ℕ) :
    runFreq S' G' freq' project' tend' c' (fun j => copies m (F j)) (copies m u0) k = copies m (runFreq S G freq project tend c F u0 k) := by
  have key := runFreq_map (copyMap V m) (τ := 1) one_ne_zero (S := S) (S' := S') (G := G) (G' := G') (freq := freq) (freq' := freq')
    (project := project) (project' := project') (P := P) (P' := P') (tend := tend) (tend' := tend') (c := c) (c' := c') (F := F)
    (F' := fun j => copies m (F j)) ?_ ?_ ?_ ?_ hp hp' ?_ ?_ hdt ?_ u0 k
  · rwa [copyMap_app, copyMap_app] at key
  · intro v q i hi
    obtain ⟨-, rfl⟩ := copyMap_src v q i hi
    exact hG _
  · intro v q i hi
    obtain ⟨-, rfl⟩ := copyMap_src v q i hi
    exact hS _
  · intro v q i hi
    obtain ⟨rfl, rfl⟩ := copyMap_src v q i hi
    rw [Complex.ofReal_one, one_mul, hf]
  · intro u
    rw [copyMap_app, copyMap_app, hP]
  · intro u v q
    rw [Complex.ofReal_one, one_mul, copyMap_app, copyMap_app, copies_eq]
    by_cases hq : Mult m q
    · obtain ⟨l, rfl⟩ := hq
      rw [copy_times hm]
      by_cases hl : l ∈ S
      · exact ht u v l hl
      · rw [ht0 u v l hl, ht0' _ v _ fun h => hl ((hS l).1 h)]
    · rw [copy_out _ hq]
      by_cases hl : q ∈ S'
      · exact hz u v q hl hq
      · exact ht0' _ v q hl
  · refine ⟨hc.1, hc.2.1, by rw [hc.2.2.1]; simp, fun v q i hi j => ?_⟩
    obtain ⟨-, rfl⟩ := copyMap_src v q i hi
    exact hc.2.2.2 j _
  · intro j v q
    rw [Complex.ofReal_one, one_mul, copyMap_app]

theorem run_copy (hm : ∀ d, 0 < m d) {G G' : Finset (D → ℤ)} (hS : SameWaves m S S') (hG : SameWaves m G G') (δ : D → ℝ) (nu : Dissip.Nu)
    {P P' : (V → Fld D) → V → Fld D} (hP : ∀ u, P' (copies m u) = copies m (P u))
    {project : Arr (V × G) → Arr (V × G)} (hp : project = onArrays G P) {project' : Arr (V × G') → Arr (V × G')} (hp' : project' = onArrays G' P')
    {tend tend' : (V → Fld D) → V → Fld D} (ht : ∀ u v, ∀ k ∈ S, tend' (copies m u) v (times m k) = tend u v k)
    (hz : ∀ u v, ∀ q ∈ S', ¬Mult m q → tend' (copies m u) v q = 0) (ht0 : ∀ u v, ∀ k ∉ S, tend u v k = 0)
    (ht0' : ∀ u v, ∀ k ∉ S', tend' u v k = 0) {c c' : Numerics D V} (hc : CopyNumerics m c c') (hdt : ∀ k, c.dt k ≠ 0)
    (F : ℕ → V → Fld D) (u0 : V → Fld D) (k : ℕ) :
    run S' G' δ nu project' tend' c' (fun j => copies m (F j)) (copies m u0) k
      = copies m (run S G (small m δ) nu project tend c F u0 k) := by
  rw [run_eq, run_eq]
  exact runFreq_copy hm hS hG (fun v k => by rw [waveSq_times]) hP hp hp' ht hz ht0 ht0' hc hdt F u0 k

/-! ### Two dimensions -/

section two

variable {m : Fin 2 → ℕ} {S S' : Finset (Fin 2 → ℤ)}

theorem vel2_copy (hm : ∀ d, 0 < m d) (δ : Fin 2 → ℝ) (rot : Fld (Fin 2)) (d : Fin 2) :
    vel2 δ (copy m rot) d = copy m (vel2 (small m δ) rot d) := by
  have hz : ∀ a b : ℝ, Forcing.vecFromRot a b 0 = (0, 0) := fun a b => by simp [Forcing.vecFromRot]
  refine eq_copy hm (fun k => ?_) fun q hq => ?_
  · fin_cases d
    · simp only [vel2, Fin.zero_eta, Matrix.cons_val_zero, ux2, copy_times hm, wave_times]
    · simp only [vel2, Fin.mk_one, Matrix.cons_val_one, Matrix.cons_val_fin_one, uy2, copy_times hm, wave_times]
  · fin_cases d
    · simp only [vel2, Fin.zero_eta, Matrix.cons_val_zero, ux2, copy_out rot hq, hz]
    · simp only [vel2, Fin.mk_one, Matrix.cons_val_one, Matrix.cons_val_fin_one, uy2, copy_out rot hq, hz]

theorem ux_copy (hm : ∀ d, 0 < m d) (δ : Fin 2 → ℝ) (rot : Fld (Fin 2)) : ux2 δ (copy m rot) = copy m (ux2 (small m δ) rot) := vel2_copy hm δ rot 0
theorem uy_copy (hm : ∀ d, 0 < m d) (δ : Fin 2 → ℝ) (rot : Fld (Fin 2)) : uy2 δ (copy m rot) = copy m (uy2 (small m δ) rot) := vel2_copy hm δ rot 1

theorem ns2d_copy (hm : ∀ d, 0 < m d) (hSS : SameWaves m S S') {n n' : Fin 2 → ℕ} (hn : ∀ d, 0 < n d) (hn' : ∀ d, 0 < n' d) (hS : NoAlias n S)
    (hS' : NoAlias n' S') (δ : Fin 2 → ℝ) (beta : ℝ) (rot : Fld (Fin 2)) :
    (∀ k ∈ S, ns2d n' S' δ beta (copy m rot) (times m k) = ns2d n S (small m δ) beta rot k) ∧
      ∀ q ∈ S', ¬Mult m q → ns2d n' S' δ beta (copy m rot) q = 0 := by
  constructor
  · intro k hk
    rw [ns2d_exact hn' hS' _ _ _ ((hSS k).2 hk), ns2d_exact hn hS _ _ _ hk, ux_copy hm, uy_copy hm, pd_copy hm, pd_copy hm, exact_copy hm hSS,
      exact_copy hm hSS, copy_times hm, copy_times hm, copy_times hm]
  · intro q hq hM
    rw [ns2d_exact hn' hS' _ _ _ hq, ux_copy hm, uy_copy hm, pd_copy hm, pd_copy hm, exact_copy hm hSS, exact_copy hm hSS, copy_out _ hM,
      copy_out _ hM, copy_out _ hM]
    ring

theorem strat_copy (hm : ∀ d, 0 < m d) (hSS : SameWaves m S S') {n n' : Fin 2 → ℕ} (hn : ∀ d, 0 < n d) (hn' : ∀ d, 0 < n' d) (hS : NoAlias n S)
    (hS' : NoAlias n' S') (δ : Fin 2 → ℝ) (N : ℝ) (rot b : Fld (Fin 2)) :
    (∀ k ∈ S, (ns2dStrat n' S' δ N (copy m rot) (copy m b)).1 (times m k) = (ns2dStrat n S (small m δ) N rot b).1 k ∧
        (ns2dStrat n' S' δ N (copy m rot) (copy m b)).2 (times m k) = (ns2dStrat n S (small m δ) N rot b).2 k) ∧
      ∀ q ∈ S', ¬Mult m q → (ns2dStrat n' S' δ N (copy m rot) (copy m b)).1 q = 0 ∧ (ns2dStrat n' S' δ N (copy m rot) (copy m b)).2 q = 0 := by
  constructor
  · intro k hk
    obtain ⟨e1, e2⟩ := ns2dStrat_exact hn' hS' δ N (copy m rot) (copy m b) ((hSS k).2 hk)
    obtain ⟨d1, d2⟩ := ns2dStrat_exact hn hS (small m δ) N rot b hk
    rw [e1, e2, d1, d2, ux_copy hm, uy_copy hm]
    simp only [pd_copy hm, exact_copy hm hSS, copy_times hm, and_self]
  · intro q hq hM
    obtain ⟨e1, e2⟩ := ns2dStrat_exact hn' hS' δ N (copy m rot) (copy m b) hq
    rw [e1, e2, ux_copy hm, uy_copy hm]
    simp only [pd_copy hm, exact_copy hm hSS, copy_out _ hM]
    constructor <;> ring

end two

/-! ### Three dimensions -/

section three

variable {m : Fin 3 → ℕ} {S S' : Finset (Fin 3 → ℤ)}

theorem wave3_times (δ : Fin 3 → ℝ) (k : Fin 3 → ℤ) : wave3 δ (times m k) = wave3 (small m δ) k := by
  simp only [wave3, wave_times]

/-- The copies of a vector field. -/
def copyV (m : Fin 3 → ℕ) (v : (Fin 3 → ℤ) → V3) : (Fin 3 → ℤ) → V3 := fun q => ⟨copy m (comp v 0) q, copy m (comp v 1) q, copy m (comp v 2) q⟩

theorem comp_copyV (v : (Fin 3 → ℤ) → V3) (d : Fin 3) : comp (copyV m v) d = copy m (comp v d) := by
  fin_cases d <;> rfl

theorem copyV_times (hm : ∀ d, 0 < m d) (v : (Fin 3 → ℤ) → V3) (k : Fin 3 → ℤ) : copyV m v (times m k) = v k := by
  refine cv_ext fun d => ?_
  rw [← comp_cv, comp_copyV, copy_times hm, comp_cv]

theorem copyV_out (v : (Fin 3 → ℤ) → V3) {q : Fin 3 → ℤ} (hq : ¬Mult m q) : copyV m v q = ⟨0, 0, 0⟩ := by
  simp only [copyV, copy_out _ hq]

theorem cor_zero (f : ℝ) : cor f ⟨0, 0, 0⟩ = ⟨0, 0, 0⟩ := by simp [cor]

theorem cv_zero (d : Fin 3) : cv ⟨0, 0, 0⟩ d = 0 := by fin_cases d <;> rfl

theorem navier_copy (hm : ∀ d, 0 < m d) (hSS : SameWaves m S S') (δ : Fin 3 → ℝ) (f : ℝ) (v : (Fin 3 → ℤ) → V3) :
    (∀ k, navierStokes S' δ f (copyV m v) (times m k) = navierStokes S (small m δ) f v k) ∧
      ∀ q, ¬Mult m q → navierStokes S' δ f (copyV m v) q = ⟨0, 0, 0⟩ := by
  constructor
  · intro k
    refine cv_ext fun d => ?_
    rw [cv_navier, cv_navier, comp_copyV, advect_copy hm hSS δ (comp_copyV v), copy_times hm, copyV_times hm]
  · intro q hq
    refine cv_ext fun d => ?_
    rw [cv_navier, comp_copyV, advect_copy hm hSS δ (comp_copyV v), copy_out _ hq, copyV_out v hq, cor_zero, cv_zero]
    ring

theorem ns3d_copy (hm : ∀ d, 0 < m d) (hSS : SameWaves m S S') {n n' : Fin 3 → ℕ} (hn : ∀ d, 0 < n d) (hn' : ∀ d, 0 < n' d) (hS : NoAlias n S)
    (hS' : NoAlias n' S') (δ : Fin 3 → ℝ) (f : Option ℝ) (p : Projection) (noVz : Bool) (v : (Fin 3 → ℤ) → V3) :
    (∀ k ∈ S, ns3d n' S' δ f p noVz (copyV m v) (times m k) = ns3d n S (small m δ) f p noVz v k) ∧
      ∀ q ∈ S', ¬Mult m q → ns3d n' S' δ f p noVz (copyV m v) q = ⟨0, 0, 0⟩ := by
  obtain ⟨h1, h2⟩ := navier_copy hm hSS δ (f.getD 0) v
  constructor
  · intro k hk
    rw [ns3d_exact hn' hS' _ _ _ _ _ ((hSS k).2 hk), ns3d_exact hn hS _ _ _ _ _ hk, h1, wave3_times]
  · intro q hq hM
    rw [ns3d_exact hn' hS' _ _ _ _ _ hq, h2 q hM, Symmetry.projV_zero]

theorem vec_copies (u : Fin 3 → Fld (Fin 3)) : vec (copies m u) = copyV m (vec u) := by
  funext q
  refine cv_ext fun d => ?_
  fin_cases d <;> rfl

theorem project_copy (hm : ∀ d, 0 < m d) (δ : Fin 3 → ℝ) (p : Projection) (noVz : Bool) (u : Fin 3 → Fld (Fin 3)) :
    (components fun k => (projectState p noVz (wave3 δ k) ⟨vec (copies m u) k, none⟩).v)
      = copies m (components fun k => (projectState p noVz (wave3 (small m δ) k) ⟨vec u k, none⟩).v) := by
  funext d
  rw [copies_eq]
  refine eq_copy hm (fun k => ?_) fun q hq => ?_
  · rw [components_cv, components_cv, projectState_v, projectState_v, vec_copies, copyV_times hm, wave3_times]
  · rw [components_cv, projectState_v, vec_copies, copyV_out _ hq, Symmetry.projV_zero, cv_zero]

theorem mode_copies (u : Fin 4 → Fld (Fin 3)) : (fun q => (modeState (copies m u) q).v) = copyV m fun q => (modeState u q).v := by
  funext q
  refine cv_ext fun d => ?_
  fin_cases d <;> rfl

theorem strat3_copy (hm : ∀ d, 0 < m d) (hSS : SameWaves m S S') {n n' : Fin 3 → ℕ} (hn : ∀ d, 0 < n d) (hn' : ∀ d, 0 < n' d) (hS : NoAlias n S)
    (hS' : NoAlias n' S') (δ : Fin 3 → ℝ) (f : Option ℝ) (N : ℝ) (p : Projection) (noVz : Bool) (v : (Fin 3 → ℤ) → V3) (b : Fld (Fin 3)) :
    (∀ k ∈ S, (ns3dStrat n' S' δ f N p noVz (copyV m v) (copy m b) (times m k)).v = (ns3dStrat n S (small m δ) f N p noVz v b k).v ∧
        (ns3dStrat n' S' δ f N p noVz (copyV m v) (copy m b) (times m k)).b = (ns3dStrat n S (small m δ) f N p noVz v b k).b) ∧
      ∀ q ∈ S', ¬Mult m q → (ns3dStrat n' S' δ f N p noVz (copyV m v) (copy m b) q).v = ⟨0, 0, 0⟩ ∧
        (ns3dStrat n' S' δ f N p noVz (copyV m v) (copy m b) q).b = some 0 := by
  obtain ⟨h1, h2⟩ := navier_copy hm hSS δ (f.getD 0) v
  constructor
  · intro k hk
    obtain ⟨e1, e2⟩ := ns3dStrat_exact hn' hS' δ f N p noVz (copyV m v) (copy m b) ((hSS k).2 hk)
    obtain ⟨d1, d2⟩ := ns3dStrat_exact hn hS (small m δ) f N p noVz v b hk
    rw [e1, e2, d1, d2, h1, wave3_times]
    simp only [copy_times hm, copyV_times hm, comp_copyV, exact_copy hm hSS, wave_times, and_self]
  · intro q hq hM
    obtain ⟨e1, e2⟩ := ns3dStrat_exact hn' hS' δ f N p noVz (copyV m v) (copy m b) hq
    rw [e1, e2, h2 q hM]
    simp only [copy_out _ hM, copyV_out _ hM, comp_copyV, exact_copy hm hSS, add, add_zero, Symmetry.projV_zero, mul_zero, sum_const_zero,
      neg_zero, sub_zero, ite_self, and_self]

theorem project4_copy (hm : ∀ d, 0 < m d) (δ : Fin 3 → ℝ) (p : Projection) (noVz : Bool) (u : Fin 4 → Fld (Fin 3)) :
    (components4 fun k => projectState p noVz (wave3 δ k) (modeState (copies m u) k))
      = copies m (components4 fun k => projectState p noVz (wave3 (small m δ) k) (modeState u k)) := by
  have ev : ∀ (δ : Fin 3 → ℝ) (u : Fin 4 → Fld (Fin 3)) k, (projectState p noVz (wave3 δ k) (modeState u k)).v
      = projV p noVz (wave3 δ k) (modeState u k).v := fun δ u k => projectState_v _ _ _ _ _
  have hb : ∀ (δ : Fin 3 → ℝ) (u : Fin 4 → Fld (Fin 3)) k, (projectState p noVz (wave3 δ k) (modeState u k)).b.getD 0
      = if noVz = true ∧ (wave3 δ k).z = 0 then 0 else u 3 k := by
    intro δ u k
    simp only [projectState, modeState, abs_eq_zero]
    split <;> simp
  have hmode : ∀ q, (modeState (copies m u) q).v = copyV m (fun q => (modeState u q).v) q := fun q => congrFun (mode_copies u) q
  funext v
  have h4 : v = 3 ∨ ∃ d : Fin 3, v = d.castSucc := by fin_cases v; exacts [.inr ⟨0, rfl⟩, .inr ⟨1, rfl⟩, .inr ⟨2, rfl⟩, .inl rfl]
  rw [copies_eq]
  refine eq_copy hm (fun k => ?_) fun q hq => ?_ <;> rcases h4 with rfl | ⟨d, rfl⟩
  · change (projectState p noVz (wave3 δ (times m k)) (modeState _ _)).b.getD 0 = (projectState p noVz (wave3 (small m δ) k) (modeState u k)).b.getD 0
    rw [hb, hb, copies_eq, copy_times hm, wave3_times]
  · rw [components4_cv, components4_cv, ev, ev, hmode, copyV_times hm, wave3_times]
  · change (projectState p noVz (wave3 δ q) (modeState _ _)).b.getD 0 = 0
    rw [hb, copies_eq, copy_out _ hq, ite_self]
  · rw [components4_cv, ev, hmode, copyV_out _ hq, Symmetry.projV_zero, cv_zero]

end three

end

end Verif.Replicas
