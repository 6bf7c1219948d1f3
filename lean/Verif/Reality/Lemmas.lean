import Verif.Reality.Spec
import Verif.Invariants.Lemmas
import Verif.EndToEnd.LemmasFields

/-! # C110: lemmas -/

set_option linter.unusedSectionVars false

namespace Verif.Reality

open Verif.Fourier Verif.Vectors Verif.Energy Verif.Schemes Verif.EndToEnd Verif.Symmetry Finset
open Verif.Invariants (Stable)

noncomputable section

section abstract

variable {ι : Type*}

/-- A set of arrays which contains the combinations of its elements with real coefficients. -/
structure RealSubspace (P : Arr ι → Prop) : Prop where
  add : ∀ x y, P x → P y → P (x + y)
  smul : ∀ (a : ℂ) x, (starRingEnd ℂ) a = a → P x → P (a • x)

theorem timeStep_real {P : Arr ι → Prop} (hP : RealSubspace P) {N : Arr ι → Arr ι} (hN : ∀ x, P x → P (N x)) (sc : Scheme) (dt : ℝ)
    {d d2 ps pa pb : Arr ι} (hd : Stable P d) (hd2 : Stable P d2) (hps : Stable P ps) (hpa : Stable P pa) (hpb : Stable P pb) (h : Heap ι)
    (hs : P (h .state)) : P (timeStepRK sc (fun _ => N) dt d d2 ps pa pb h .state) := by
  cases sc <;>
    simp only [timeStepRK, euler, eulerPhaseshift, eulerPhaseshiftRandom, rk2, rk2Trapezoid, rk2Phaseshift, rk2PhaseshiftRandom,
      rk2PhaseshiftExact, rk4, tendencies, stepEuler, stepLikeRK2, meanWithPhaseshift, mulShift, divInplace, set_same, set_other, ne_eq,
      reduceCtorEq, not_false_eq_true] <;>
    repeat (first | assumption | apply hN | apply hP.add | (refine hP.smul _ _ (by simp [map_div₀, map_ofNat (starRingEnd ℂ)]) ?_) | apply hd.mul | apply hd2.mul | apply hd2.mul' | apply hps.mul' | apply hps.div | apply hpa.mul' | apply hpa.div | apply hpb.mul' | apply hpb.div)

/-- What a run needs to stay in a set of arrays. -/
structure Kept (P : Arr ι → Prop) (project : Arr ι → Arr ι) (N : ℕ → Arr ι → Arr ι) (f : Arr ι) (mask : ι → Bool) (ps pa pb : ℕ → Arr ι) : Prop where
  sub : RealSubspace P
  tend : ∀ m x, P x → P (N m x)
  project : ∀ x, P x → P (project x)
  mask : ∀ x, P x → P fun i => if mask i then 0 else x i
  lin : ∀ t : ℂ, (starRingEnd ℂ) t = t → Stable P fun i => Complex.exp (t * f i)
  ps : ∀ m, Stable P (ps m)
  pa : ∀ m, Stable P (pa m)
  pb : ∀ m, Stable P (pb m)

variable {P : Arr ι → Prop} {project : Arr ι → Arr ι} {sc : Scheme} {N : ℕ → Arr ι → Arr ι} {f : Arr ι} {mask : ι → Bool}
  {ps pa pb : ℕ → Arr ι} {heap : Heap ι} {g1 g2 : Arr ι} {cfl : Bool} {u0 : Arr ι} {dt : ℕ → ℝ}

theorem stepping_real (hk : Kept P project N f mask ps pa pb) (h0 : P u0) (hdt : ∀ k, dt k ≠ 0) (hfix : cfl = false → ∀ k, dt k = dt 0) (k : ℕ) :
    P ((stepping project sc N f mask ps pa pb heap g1 g2 cfl u0 dt k).heap .state) := by
  induction k with
  | zero => simpa only [stepping, set_same] using h0
  | succ k ih =>
    obtain ⟨e1, e2⟩ := Invariants.coefs_get (f := f) (g1 := g1) (g2 := g2) (project := project) (sc := sc) (N := N) (mask := mask) (ps := ps) (pa := pa)
      (pb := pb) (heap := heap) (u0 := u0) hdt hfix k
    simp only [stepping, oneStep3d, Schemes.dealias, set_same, e1, e2]
    exact hk.mask _ (hk.project _ (timeStep_real hk.sub (hk.tend k) sc _ (hk.lin _ (by simp)) (hk.lin _ (by simp [map_div₀, map_ofNat (starRingEnd ℂ)])) (hk.ps k) (hk.pa k)
      (hk.pb k) _ ih))

end abstract

variable {D V : Type*} [Fintype D] [DecidableEq D] [Fintype V]

/-- Hermitian symmetry with modes in `S`. -/
def Herm (S : Finset (D → ℤ)) (u : V → Fld D) : Prop := ∀ v, RealField S (u v)

theorem realArrays_iff {n : D → ℕ} {S : Finset (D → ℤ)} (hg : Grid n S) (u : V → Fld D) : RealArrays n S u ↔ Herm S u := by
  constructor
  · intro h v
    refine ⟨fun k hk => ⟨hg.opposite k hk, ?_⟩, h.modes v⟩
    have := fft_real n (x := gridVal n S (u v)) (fun j => Complex.conj_eq_iff_im.2 (h.real v j)) k
    rwa [fft_grid hg.pos hg.distinct _ hk, fft_grid hg.pos hg.distinct _ (hg.opposite k hk)] at this
  · intro h
    exact ⟨fun v => (h v).2, fun v j => Complex.conj_eq_iff_im.1 (real_grid (h v).1 j)⟩

theorem herm_iff {S : Finset (D → ℤ)} (hS : Sym S) (u : V → Fld D) : Herm S u ↔ realPart S u = u := by
  rw [realPart_iff hS]
  exact ⟨fun h => ⟨fun v => (h v).1, fun v => (h v).2⟩, fun h v => ⟨h.1 v, h.2 v⟩⟩

/-- The arrays of the real fields. -/
def HermArr (S G : Finset (D → ℤ)) (x : Arr (V × G)) : Prop := Herm S (fields G x)

variable {S G : Finset (D → ℤ)}

theorem herm_array (hG : S ⊆ G) {u : V → Fld D} (h : Herm S u) : HermArr S G (array G u) := by
  rw [HermArr, EndToEnd.fields_array hG fun v => (h v).2]
  exact h

theorem hermArr_sub : RealSubspace (HermArr (V := V) S G) where
  add x y hx hy v := by
    have e : ∀ k, fields G (x + y) v k = fields G x v k + fields G y v k := fun k => by by_cases hk : k ∈ G <;> simp [fields, hk]
    refine ⟨fun k hk => ⟨((hx v).1 k hk).1, ?_⟩, fun k hk => ?_⟩
    · rw [e, e, ((hx v).1 k hk).2, ((hy v).1 k hk).2, map_add]
    · rw [e, (hx v).2 k hk, (hy v).2 k hk, add_zero]
  smul a x ha hx v := by
    have e : ∀ k, fields G (a • x) v k = a * fields G x v k := fun k => by by_cases hk : k ∈ G <;> simp [fields, hk]
    refine ⟨fun k hk => ⟨((hx v).1 k hk).1, ?_⟩, fun k hk => ?_⟩
    · rw [e, e, ((hx v).1 k hk).2, map_mul, ha]
    · rw [e, (hx v).2 k hk, mul_zero]

theorem hermArr_stable {d : V → (D → ℤ) → ℂ} (hd : ∀ v k, d v (-k) = (starRingEnd ℂ) (d v k)) :
    Stable (HermArr (V := V) S G) fun i => d i.1 i.2.1 := by
  refine ⟨fun x hx v => ?_, fun x hx v => ?_, fun x hx v => ?_⟩
  · have e : ∀ k, fields G (x * fun i : V × G => d i.1 i.2.1) v k = fields G x v k * d v k := fun k => by by_cases hk : k ∈ G <;> simp [fields, hk]
    exact ⟨fun k hk => ⟨((hx v).1 k hk).1, by rw [e, e, ((hx v).1 k hk).2, map_mul, hd]⟩, fun k hk => by rw [e, (hx v).2 k hk, zero_mul]⟩
  · have e : ∀ k, fields G ((fun i : V × G => d i.1 i.2.1) * x) v k = fields G x v k * d v k := fun k => by
      by_cases hk : k ∈ G <;> simp [fields, hk, mul_comm]
    exact ⟨fun k hk => ⟨((hx v).1 k hk).1, by rw [e, e, ((hx v).1 k hk).2, map_mul, hd]⟩, fun k hk => by rw [e, (hx v).2 k hk, zero_mul]⟩
  · have e : ∀ k, fields G (x / fun i : V × G => d i.1 i.2.1) v k = fields G x v k / d v k := fun k => by by_cases hk : k ∈ G <;> simp [fields, hk]
    exact ⟨fun k hk => ⟨((hx v).1 k hk).1, by rw [e, e, ((hx v).1 k hk).2, map_div₀, hd]⟩, fun k hk => by rw [e, (hx v).2 k hk, zero_div]⟩

/-- The runs, for any tendency and any damping frequencies which keep the symmetry. -/
theorem stepping_herm (hG : S ⊆ G) {project : Arr (V × G) → Arr (V × G)} (hp : ∀ x, HermArr S G x → HermArr S G (project x))
    {tend : (V → Fld D) → V → Fld D} (ht : ∀ u, Herm S u → Herm S (tend u)) {freq : V → Fld D}
    (hf : ∀ v k, freq v (-k) = (starRingEnd ℂ) (freq v k)) {c : Numerics D V} (hc : Proper c) {F : ℕ → V → Fld D} (hF : ∀ m, Herm S (F m))
    {u0 : V → Fld D} (h0 : Herm S u0) (k : ℕ) : Herm S (runFreq S G freq project tend c F u0 k) := by
  refine stepping_real (P := HermArr S G) ⟨hermArr_sub, fun m x hx => ?_, hp, fun x hx v => ?_, fun t htr => ?_, fun m => ?_, fun m => ?_,
    fun m => ?_⟩ (herm_array hG h0) hc.dt hc.fix k
  · refine herm_array hG fun v => ?_
    have h := ht _ hx v
    exact ⟨real_add h.1 (hF m v).1, fun k hk => by rw [forced, h.2 k hk, (hF m v).2 k hk, add_zero]⟩
  · have e : ∀ k ∈ S, fields G (fun i : V × G => if truncated G S i then 0 else x i) v k = fields G x v k := fun k hk => by
      simp [fields, truncated, hk]
    refine ⟨real_congr (hx v).1 e, fun k hk => ?_⟩
    by_cases hkG : k ∈ G <;> simp [fields, truncated, hk, hkG]
  · refine hermArr_stable (d := fun v k => Complex.exp (t * freq v k)) fun v k => ?_
    rw [hf, ← Complex.exp_conj, map_mul, htr]
  · exact hermArr_stable (d := fun _ k => c.ps m k) fun v k => hc.ps m k
  · exact hermArr_stable (d := fun _ k => c.pa m k) fun v k => hc.pa m k
  · exact hermArr_stable (d := fun _ k => c.pb m k) fun v k => hc.pb m k

theorem waveSq_opp (δ : D → ℝ) (k : D → ℤ) : waveSq δ (-k) = waveSq δ k := by
  simp [waveSq]

theorem run_herm (hG : S ⊆ G) (δ : D → ℝ) (nu : Dissip.Nu) {project : Arr (V × G) → Arr (V × G)}
    (hp : ∀ x, HermArr S G x → HermArr S G (project x)) {tend : (V → Fld D) → V → Fld D} (ht : ∀ u, Herm S u → Herm S (tend u))
    {c : Numerics D V} (hc : Proper c) {F : ℕ → V → Fld D} (hF : ∀ m, Herm S (F m)) {u0 : V → Fld D} (h0 : Herm S u0) (k : ℕ) :
    Herm S (run S G δ nu project tend c F u0 k) :=
  stepping_herm (freq := fun _ k => (Dissip.fd nu (waveSq δ k) : ℂ)) hG hp ht (fun v k => by rw [waveSq_opp, Complex.conj_ofReal]) hc hF h0 k

end

end Verif.Reality
