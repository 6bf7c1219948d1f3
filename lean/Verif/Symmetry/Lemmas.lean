import Verif.Symmetry.Model
import Verif.Schemes.Props
import Verif.EndToEnd.LemmasProj

/-! # C95, C96: the time schemes on states which are images of other states -/

set_option linter.unusedSectionVars false

namespace Verif.Symmetry

open Verif.Fourier Verif.Energy Verif.Galerkin Verif.Schemes Verif.Convergence Verif.EndToEnd Finset

noncomputable section

variable {ι κ : Type*}

/-- Multiplications before and after a transformation. -/
def Compat (Λ : Arr ι → Arr κ) (d : Arr ι) (d' : Arr κ) : Prop := (∀ x, Λ (x * d) = Λ x * d') ∧ ∀ x, Λ (x / d) = Λ x / d'

/-- A change of the unit of time. -/
theorem timeStep_scale (sc : Scheme) (N : Arr ι → Arr ι) (τ dt : ℂ) (d d2 ps pa pb : Arr ι) (h : Heap ι) :
    timeStepRK sc (fun _ => N) (τ * dt) d d2 ps pa pb h .state
      = timeStepRK sc (fun _ x => τ • N x) dt d d2 ps pa pb h .state := by
  have e : ∀ (a : ℂ) (x : Arr ι), (τ * dt / a) • x = (dt / a) • (τ • x) := fun a x => by rw [smul_smul]; congr 1; ring
  have e1 : ∀ (x : Arr ι), (τ * dt) • x = dt • (τ • x) := fun x => by rw [smul_smul]; congr 1; ring
  have e2 : ∀ (x y : Arr ι), τ • (x * y) = x * (τ • y) := fun x y => by rw [mul_smul_comm]
  have e3 : ∀ (x y : Arr ι), τ • (x / y) = (τ • x) / y := fun x y => by funext i; simp [mul_div_assoc]
  have e4 : ∀ (a : ℂ) (x : Arr ι), τ • a • x = a • τ • x := fun a x => smul_comm _ _ _
  have e5 : ∀ (x y : Arr ι), τ • (x + y) = τ • x + τ • y := fun x y => smul_add _ _ _
  cases sc <;>
    simp only [timeStepRK, euler, eulerPhaseshift, eulerPhaseshiftRandom, rk2, rk2Trapezoid, rk2Phaseshift, rk2PhaseshiftRandom,
      rk2PhaseshiftExact, rk4, tendencies, stepEuler, stepLikeRK2, meanWithPhaseshift, mulShift, divInplace, set_same, set_other, ne_eq,
      reduceCtorEq, not_false_eq_true, e, e1, e2, e3, e4, e5]

/-- The schemes commute with a linear transformation. -/
theorem timeStep_map {Λ : Arr ι → Arr κ} (hadd : ∀ x y, Λ (x + y) = Λ x + Λ y) (hsmul : ∀ (a : ℂ) x, Λ (a • x) = a • Λ x)
    {N : Arr ι → Arr ι} {N' : Arr κ → Arr κ} (hN : ∀ x, N' (Λ x) = Λ (N x))
    (sc : Scheme) (dt : ℂ) {d d2 ps pa pb : Arr ι} {d' d2' ps' pa' pb' : Arr κ} (hd : Compat Λ d d') (hd2 : Compat Λ d2 d2')
    (hps : Compat Λ ps ps') (hpa : Compat Λ pa pa') (hpb : Compat Λ pb pb') (h : Heap ι) (h' : Heap κ) (hs : h' .state = Λ (h .state)) :
    timeStepRK sc (fun _ => N') dt d' d2' ps' pa' pb' h' .state = Λ (timeStepRK sc (fun _ => N) dt d d2 ps pa pb h .state) := by
  have k : ∀ {d : Arr ι} {d' : Arr κ}, Compat Λ d d' → ∀ x, Λ (d * x) = d' * Λ x := fun h x => by
    rw [mul_comm, h.1, mul_comm]
  have e1 := hd.1
  have e2 := hd2.1
  have e2' := k hd2
  have e3 := k hps
  have e4 := k hpa
  have e5 := k hpb
  have f3 := hps.2
  have f4 := hpa.2
  have f5 := hpb.2
  cases sc <;>
    simp only [timeStepRK, euler, eulerPhaseshift, eulerPhaseshiftRandom, rk2, rk2Trapezoid, rk2Phaseshift, rk2PhaseshiftRandom,
      rk2PhaseshiftExact, rk4, tendencies, stepEuler, stepLikeRK2, meanWithPhaseshift, mulShift, divInplace, set_same, set_other, ne_eq,
      reduceCtorEq, not_false_eq_true, hs, hadd, hsmul, ← hN, e1, e2, e2', e3, e4, e5, f3, f4, f5]

/-- The caches of coefficients of two time steppings. -/
def CoefsRel (Λ : Arr ι → Arr κ) (τ : ℝ) (a : Coefs ι) (b : Coefs κ) : Prop :=
  (∀ t : ℝ, Compat Λ (fun i => Complex.exp (-t * a.freq i)) (fun j => Complex.exp (-(τ * t : ℝ) * b.freq j))) ∧
    b.dtOld = τ * a.dtOld ∧ b.useCFL = a.useCFL ∧
    ((a.useCFL = true ∧ a.dtOld = 0) ∨ (Compat Λ a.exact1 b.exact1 ∧ Compat Λ a.exact2 b.exact2))

theorem coefsRel_compute {Λ : Arr ι → Arr κ} {τ : ℝ} {a : Coefs ι} {b : Coefs κ} (h : CoefsRel Λ τ a b) (dt : ℝ) :
    CoefsRel Λ τ (a.compute dt) (b.compute (τ * dt)) := by
  refine ⟨h.1, rfl, h.2.2.1, Or.inr ⟨h.1 dt, ?_⟩⟩
  have := h.1 (dt / 2)
  simp only [Coefs.compute]
  convert this using 5
  · push_cast; ring
  · push_cast; ring

theorem coefsRel_init {Λ : Arr ι → Arr κ} {τ : ℝ} {f : Arr ι} {f' : Arr κ}
    (h : ∀ t : ℝ, Compat Λ (fun i => Complex.exp (-t * f i)) (fun j => Complex.exp (-(τ * t : ℝ) * f' j))) (cfl : Bool) (dt : ℝ)
    (g1 g2 : Arr ι) (g1' g2' : Arr κ) : CoefsRel Λ τ (Coefs.init f cfl dt g1 g2) (Coefs.init f' cfl (τ * dt) g1' g2') := by
  cases cfl
  · refine ⟨h, rfl, rfl, Or.inr ⟨h dt, ?_⟩⟩
    have := h (dt / 2)
    simp only [Coefs.init, Coefs.compute]
    convert this using 5
    · push_cast; ring
    · push_cast; ring
  · exact ⟨h, by simp [Coefs.init], rfl, Or.inl ⟨rfl, rfl⟩⟩

theorem coefsRel_get {Λ : Arr ι → Arr κ} {τ : ℝ} (hτ : τ ≠ 0) {a : Coefs ι} {b : Coefs κ} (h : CoefsRel Λ τ a b) {dt : ℝ}
    (hdt : dt ≠ 0) :
    CoefsRel Λ τ (a.get dt).1 (b.get (τ * dt)).1 ∧ Compat Λ (a.get dt).2.1 (b.get (τ * dt)).2.1 ∧
      Compat Λ (a.get dt).2.2 (b.get (τ * dt)).2.2 := by
  have hc := coefsRel_compute h dt
  obtain ⟨h1, h2, h3, h4⟩ := h
  simp only [Coefs.get, h3, h2]
  cases hcfl : a.useCFL
  · simp only [Bool.false_eq_true, if_false]
    rw [hcfl] at h4
    simp only [Bool.false_eq_true, false_and, false_or] at h4
    exact ⟨⟨h1, h2, h3, Or.inr h4⟩, h4⟩
  · simp only [if_true]
    by_cases he : a.dtOld = dt
    · simp only [he, ne_eq, not_true_eq_false, if_false]
      have h4' := h4.resolve_left fun h => hdt (by rw [← he]; exact h.2)
      exact ⟨⟨h1, h2, h3, Or.inr h4'⟩, h4'⟩
    · have he' : τ * a.dtOld ≠ τ * dt := fun h => he (mul_left_cancel₀ hτ h)
      simp only [ne_eq, he, he', not_false_eq_true, if_true]
      refine ⟨hc, ?_⟩
      rcases hc.2.2.2 with h | h
      · exact absurd h.2 hdt
      · exact h

/-- The runs commute with a linear transformation and a change of the unit of time. -/
theorem stepping_map {Λ : Arr ι → Arr κ} (hadd : ∀ x y, Λ (x + y) = Λ x + Λ y) (hsmul : ∀ (a : ℂ) x, Λ (a • x) = a • Λ x)
    {τ : ℝ} (hτ : τ ≠ 0) {N : ℕ → Arr ι → Arr ι} {N' : ℕ → Arr κ → Arr κ} (hN : ∀ m x, (τ : ℂ) • N' m (Λ x) = Λ (N m x))
    {P : Arr ι → Arr ι} {P' : Arr κ → Arr κ} (hP : ∀ x, P' (Λ x) = Λ (P x)) (sc : Scheme) {f : Arr ι} {f' : Arr κ}
    (hf : ∀ t : ℝ, Compat Λ (fun i => Complex.exp (-t * f i)) (fun j => Complex.exp (-(τ * t : ℝ) * f' j)))
    {mask : ι → Bool} {mask' : κ → Bool}
    (hm : ∀ x : Arr ι, (fun j => if mask' j then 0 else Λ x j) = Λ fun i => if mask i then 0 else x i)
    {ps pa pb : ℕ → Arr ι} {ps' pa' pb' : ℕ → Arr κ} (hps : ∀ m, Compat Λ (ps m) (ps' m)) (hpa : ∀ m, Compat Λ (pa m) (pa' m))
    (hpb : ∀ m, Compat Λ (pb m) (pb' m)) (heap : Heap ι) (heap' : Heap κ) (g1 g2 : Arr ι) (g1' g2' : Arr κ) (cfl : Bool) (u0 : Arr ι)
    {dt : ℕ → ℝ} (hdt : ∀ k, dt k ≠ 0) (k : ℕ) :
    let s := stepping P sc N f mask ps pa pb heap g1 g2 cfl u0 dt k
    let s' := stepping P' sc N' f' mask' ps' pa' pb' heap' g1' g2' cfl (Λ u0) (fun m => τ * dt m) k
    CoefsRel Λ τ s.coefs s'.coefs ∧ s'.heap .state = Λ (s.heap .state) := by
  induction k with
  | zero =>
    simp only [stepping, set_same]
    exact ⟨coefsRel_init hf cfl (dt 0) g1 g2 g1' g2', trivial⟩
  | succ k ih =>
    intro s s'
    obtain ⟨h1, h2⟩ := ih
    obtain ⟨r1, r2, r3⟩ := coefsRel_get hτ h1 (hdt k)
    refine ⟨r1, ?_⟩
    simp only [s, s', stepping, oneStep3d, Schemes.dealias, set_same]
    have e := timeStep_scale sc (N' k) (τ : ℂ) (dt k : ℂ)
      ((stepping P' sc N' f' mask' ps' pa' pb' heap' g1' g2' cfl (Λ u0) (fun m => τ * dt m) k).coefs.get (τ * dt k)).2.1
      ((stepping P' sc N' f' mask' ps' pa' pb' heap' g1' g2' cfl (Λ u0) (fun m => τ * dt m) k).coefs.get (τ * dt k)).2.2
      (ps' k) (pa' k) (pb' k) (stepping P' sc N' f' mask' ps' pa' pb' heap' g1' g2' cfl (Λ u0) (fun m => τ * dt m) k).heap
    push_cast
    rw [e, timeStep_map hadd hsmul (N := N k) (N' := fun x => (τ : ℂ) • N' k x) (fun x => hN k x) sc (dt k) r2 r3 (hps k) (hpa k) (hpb k)
      _ _ h2, hP, hm]

/-! ### transformations of fields -/

/-- Each coefficient of the new fields is zero or a multiple of one of the old fields. -/
structure Map (V D W E : Type*) where
  src : W → (E → ℤ) → Option (V × (D → ℤ))
  c : W → (E → ℤ) → ℂ

variable {V D W E : Type*} [Fintype D] [DecidableEq (D → ℤ)] [Fintype E] [DecidableEq (E → ℤ)]

/-- The new fields. -/
def Map.app (m : Map V D W E) (u : V → Fld D) : W → Fld E := fun w q => (m.src w q).elim 0 fun i => m.c w q * u i.1 i.2

theorem fields_array (G : Finset (D → ℤ)) {u : V → Fld D} (h : ∀ v k, k ∉ G → u v k = 0) : fields G (array G u) = u := by
  funext v k
  simp only [fields, array]
  split
  · rfl
  · rename_i hk; rw [h v k hk]

theorem array_fields (G : Finset (D → ℤ)) (a : Arr (V × G)) : array G (fields G a) = a := by
  funext i
  simp only [array, fields]
  rw [dif_pos i.2.2]

/-- The numerics of two runs related by a transformation: same scheme, and phase shifts which correspond. -/
def Numerics.Related (m : Map V D W E) (τ : ℝ) (c : Numerics D V) (c' : Numerics E W) : Prop :=
  c'.sc = c.sc ∧ c'.cfl = c.cfl ∧ c'.dt = (fun k => τ * c.dt k) ∧
    ∀ w q i, m.src w q = some i → ∀ j, c'.ps j q = c.ps j i.2 ∧ c'.pa j q = c.pa j i.2 ∧ c'.pb j q = c.pb j i.2

theorem runFreq_map (m : Map V D W E) {τ : ℝ} (hτ : τ ≠ 0) {S G : Finset (D → ℤ)} {S' G' : Finset (E → ℤ)}
    (hG : ∀ w q i, m.src w q = some i → (q ∈ G' ↔ i.2 ∈ G)) (hS : ∀ w q i, m.src w q = some i → (q ∈ S' ↔ i.2 ∈ S))
    {freq : V → Fld D} {freq' : W → Fld E} (hf : ∀ w q i, m.src w q = some i → τ * freq' w q = freq i.1 i.2)
    {P : (V → Fld D) → V → Fld D} {P' : (W → Fld E) → W → Fld E} (hP : ∀ u, P' (m.app u) = m.app (P u))
    {project : Arr (V × G) → Arr (V × G)} {project' : Arr (W × G') → Arr (W × G')} (hp : project = onArrays G P)
    (hp' : project' = onArrays G' P')
    {tend : (V → Fld D) → V → Fld D} {tend' : (W → Fld E) → W → Fld E} (ht : ∀ u w q, τ * tend' (m.app u) w q = m.app (tend u) w q)
    {c : Numerics D V} {c' : Numerics E W} (hc : c.Related m τ c') (hdt : ∀ k, c.dt k ≠ 0)
    {F : ℕ → V → Fld D} {F' : ℕ → W → Fld E} (hF : ∀ j w q, τ * F' j w q = m.app (F j) w q) (u0 : V → Fld D) (k : ℕ) :
    runFreq S' G' freq' project' tend' c' F' (m.app u0) k = m.app (runFreq S G freq project tend c F u0 k) := by
  obtain ⟨c1, c2, c3, c4⟩ := hc
  set Λ : Arr (V × G) → Arr (W × G') := fun a => array G' (m.app (fields G a)) with hΛ
  have hval : ∀ a (i : W × G'), Λ a i = (m.src i.1 i.2.1).elim 0 fun j => m.c i.1 i.2.1 * fields G a j.1 j.2 := fun _ _ => rfl
  have hcomp : ∀ (d : Arr (V × G)) (d' : Arr (W × G')),
      (∀ (w : W) (q : G') (v : V) (j : G), m.src w q.1 = some (v, j.1) → d' (w, q) = d (v, j)) → Compat Λ d d' := by
    intro d d' h
    constructor <;> intro x <;> funext i <;> simp only [Pi.mul_apply, Pi.div_apply, hval] <;>
      rcases hs : m.src i.1 i.2.1 with _ | j <;> simp only [Option.elim_none, Option.elim_some, zero_mul, zero_div]
    · have hj := (hG _ _ _ hs).1 i.2.2
      simp only [fields, dif_pos hj, Pi.mul_apply]
      rw [h i.1 i.2 j.1 ⟨j.2, hj⟩ hs]; ring
    · have hj := (hG _ _ _ hs).1 i.2.2
      simp only [fields, dif_pos hj, Pi.div_apply]
      rw [h i.1 i.2 j.1 ⟨j.2, hj⟩ hs]; ring
  have hback : ∀ a, fields G' (Λ a) = m.app (fields G a) := by
    intro a
    refine fields_array G' fun w q hq => ?_
    simp only [Map.app]
    rcases hs : m.src w q with _ | j
    · rfl
    · simp only [Option.elim_some, fields]
      rw [dif_neg fun h => hq ((hG _ _ _ hs).2 h), mul_zero]
  have happ : ∀ (u : V → Fld D), Λ (array G u) = array G' (m.app u) := by
    intro u
    funext i
    rw [hval]
    simp only [array, Map.app]
    rcases hs : m.src i.1 i.2.1 with _ | j
    · rfl
    · have hj := (hG _ _ _ hs).1 i.2.2
      simp only [Option.elim_some, fields, dif_pos hj, array]
  simp only [runFreq]
  rw [← hback]
  congr 1
  rw [c1, c2, c3, ← happ]
  refine (stepping_map (Λ := Λ) (τ := τ) ?_ ?_ hτ ?_ ?_ _ ?_ ?_ ?_ ?_ ?_ _ _ _ _ _ _ _ _ hdt k).2
  · intro x y
    funext i
    simp only [Pi.add_apply, hval]
    rcases m.src i.1 i.2.1 with _ | j
    · simp
    · simp only [Option.elim_some, fields]
      split
      · simp only [Pi.add_apply]; ring
      · ring
  · intro a x
    funext i
    simp only [Pi.smul_apply, smul_eq_mul, hval]
    rcases m.src i.1 i.2.1 with _ | j
    · simp
    · simp only [Option.elim_some, fields]
      split
      · simp only [Pi.smul_apply, smul_eq_mul]; ring
      · ring
  · intro j x
    simp only [onArrays, hback, happ]
    funext i
    simp only [Pi.smul_apply, smul_eq_mul, array, forced, mul_add, ht, hF]
    simp only [Map.app]
    rcases m.src i.1 i.2.1 with _ | j
    · simp
    · simp only [Option.elim_some, forced]; ring
  · intro x
    rw [hp, hp']
    simp only [onArrays, hback, happ, hP]
  · intro t
    refine hcomp _ _ fun w q v j hs => ?_
    have := hf _ _ _ hs
    simp only at this ⊢
    rw [← this]
    congr 1
    push_cast
    ring
  · intro x
    funext i
    simp only [hval]
    rcases hs : m.src i.1 i.2.1 with _ | j
    · simp
    · have hj := (hG _ _ _ hs).1 i.2.2
      have hSS := hS _ _ _ hs
      simp only [Option.elim_some, fields, dif_pos hj, truncated, hSS]
      by_cases h : j.2 ∈ S <;> simp [h]
  · exact fun j => hcomp _ _ fun w q v i hs => (c4 _ _ _ hs j).1
  · exact fun j => hcomp _ _ fun w q v i hs => (c4 _ _ _ hs j).2.1
  · exact fun j => hcomp _ _ fun w q v i hs => (c4 _ _ _ hs j).2.2

theorem run_eq {S G : Finset (D → ℤ)} {δ : D → ℝ} {nu : Dissip.Nu} {project : Arr (V × G) → Arr (V × G)}
    {tend : (V → Fld D) → V → Fld D} {c : Numerics D V} {F : ℕ → V → Fld D} {u0 : V → Fld D} {k : ℕ} :
    run S G δ nu project tend c F u0 k = runFreq S G (fun _ q => (Dissip.fd nu (waveSq δ q) : ℂ)) project tend c F u0 k := rfl

theorem run_map (m : Map V D W E) {τ : ℝ} (hτ : τ ≠ 0) {S G : Finset (D → ℤ)} {S' G' : Finset (E → ℤ)}
    (hG : ∀ w q i, m.src w q = some i → (q ∈ G' ↔ i.2 ∈ G)) (hS : ∀ w q i, m.src w q = some i → (q ∈ S' ↔ i.2 ∈ S))
    {δ : D → ℝ} {δ' : E → ℝ} {nu nu' : Dissip.Nu}
    (hf : ∀ w q i, m.src w q = some i → τ * Dissip.fd nu' (waveSq δ' q) = Dissip.fd nu (waveSq δ i.2))
    {P : (V → Fld D) → V → Fld D} {P' : (W → Fld E) → W → Fld E} (hP : ∀ u, P' (m.app u) = m.app (P u))
    {project : Arr (V × G) → Arr (V × G)} {project' : Arr (W × G') → Arr (W × G')} (hp : project = onArrays G P)
    (hp' : project' = onArrays G' P')
    {tend : (V → Fld D) → V → Fld D} {tend' : (W → Fld E) → W → Fld E} (ht : ∀ u w q, τ * tend' (m.app u) w q = m.app (tend u) w q)
    {c : Numerics D V} {c' : Numerics E W} (hc : c.Related m τ c') (hdt : ∀ k, c.dt k ≠ 0)
    {F : ℕ → V → Fld D} {F' : ℕ → W → Fld E} (hF : ∀ j w q, τ * F' j w q = m.app (F j) w q) (u0 : V → Fld D) (k : ℕ) :
    run S' G' δ' nu' project' tend' c' F' (m.app u0) k = m.app (run S G δ nu project tend c F u0 k) := by
  rw [run_eq, run_eq]
  exact runFreq_map m hτ hG hS (fun w q i h => by exact_mod_cast hf w q i h) hP hp hp' ht hc hdt hF u0 k

end

end Verif.Symmetry
