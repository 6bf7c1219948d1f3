import Verif.EndToEnd.LemmasFields

/-!
# Lemmas for C87: projections in 3D
-/

set_option linter.unusedSectionVars false

namespace Verif.EndToEnd

open Verif.Fourier Verif.Vectors Verif.Energy Verif.Galerkin Verif.Schemes Verif.Convergence Finset

noncomputable section

theorem projectState_v (p : Projection) (noVz : Bool) (k : K3) (v : V3) (b : Option ℂ) :
    (projectState p noVz k ⟨v, b⟩).v = projV p noVz k v := by
  by_cases h : noVz = true ∧ k.z = 0 <;> simp only [projectState, projV, abs_eq_zero, h, if_true, if_false, and_self]

theorem projV_linear (p : Projection) (noVz : Bool) (k : K3) (a b : ℂ) (v w : V3) :
    projV p noVz k ⟨a * v.x + b * w.x, a * v.y + b * w.y, a * v.z + b * w.z⟩
      = ⟨a * (projV p noVz k v).x + b * (projV p noVz k w).x, a * (projV p noVz k v).y + b * (projV p noVz k w).y,
        a * (projV p noVz k v).z + b * (projV p noVz k w).z⟩ := by
  by_cases h : noVz = true ∧ k.z = 0 <;> cases p <;>
    simp only [projV, h, if_true, if_false, projector, perpk, kradial, toroidal, poloidal, V3.mk.injEq, and_self] <;>
    refine ⟨?_, ?_, ?_⟩ <;> ring

theorem projV_idem (p : Projection) (noVz : Bool) (k : K3) (v : V3) : projV p noVz k (projV p noVz k v) = projV p noVz k v := by
  have hp : ∀ v, projector p k (projector p k v) = projector p k v := by
    intro v
    cases p
    · exact C28_idempotent k v
    · exact (C29_orthogonal_idempotents k v v).2.1
    · exact (C29_orthogonal_idempotents k v v).1
  by_cases h : noVz = true ∧ k.z = 0
  · have e : (⟨(projector p k v).x, (projector p k v).y, 0⟩ : V3) = projector p k ⟨v.x, v.y, 0⟩ := by
      cases p
      · simp only [projector, perpk, kradial, h.2, V3.mk.injEq]
        simp
      · simp only [projector, toroidal]
      · simp only [projector, poloidal, cosTheta, h.2]
        simp
    simp only [projV, h, if_true, and_self]
    rw [e, hp, ← e]
  · simp only [projV, h, if_false]
    exact hp v

theorem projV_conj (p : Projection) (noVz : Bool) (δ : Fin 3 → ℝ) (k : Fin 3 → ℤ) (v : V3) :
    projV p noVz (wave3 δ (-k)) ⟨(starRingEnd ℂ) v.x, (starRingEnd ℂ) v.y, (starRingEnd ℂ) v.z⟩
      = ⟨(starRingEnd ℂ) (projV p noVz (wave3 δ k) v).x, (starRingEnd ℂ) (projV p noVz (wave3 δ k) v).y,
        (starRingEnd ℂ) (projV p noVz (wave3 δ k) v).z⟩ := by
  have h0 : (wave3 δ (-k)).z = 0 ↔ (wave3 δ k).z = 0 := by simp [wave3]
  have ex : (wave3 δ (-k)).x = -(wave3 δ k).x := by simp [wave3]
  have ey : (wave3 δ (-k)).y = -(wave3 δ k).y := by simp [wave3]
  have ez : (wave3 δ (-k)).z = -(wave3 δ k).z := by simp [wave3]
  have e : k2 (wave3 δ (-k)) = k2 (wave3 δ k) := by simp [k2, kh2, wave3]
  have eh : kh2 (wave3 δ (-k)) = kh2 (wave3 δ k) := by simp [kh2, wave3]
  have e1 : cosTheta (wave3 δ (-k)) = -cosTheta (wave3 δ k) := by simp only [cosTheta, e, ez]; ring
  have e2 : sinTheta (wave3 δ (-k)) = sinTheta (wave3 δ k) := by simp only [sinTheta, e, eh]
  have e3 : cosPhi (wave3 δ (-k)) = -cosPhi (wave3 δ k) := by simp only [cosPhi, eh, ex]; ring
  have e4 : sinPhi (wave3 δ (-k)) = -sinPhi (wave3 δ k) := by simp only [sinPhi, eh, ey]; ring
  by_cases h : noVz = true ∧ (wave3 δ k).z = 0
  · have hn : noVz = true ∧ (wave3 δ (-k)).z = 0 := ⟨h.1, h0.2 h.2⟩
    simp only [projV, if_pos h, if_pos hn]
    cases p <;>
      simp only [projector, perpk, kradial, toroidal, poloidal, V3.mk.injEq, ex, ey, ez, e, e1, e2,
        e3, e4, map_sub, map_add, map_mul, map_neg, Complex.conj_ofReal, Complex.ofReal_neg, map_zero] <;>
      refine ⟨?_, ?_, ?_⟩ <;> first | trivial | ring
  · have hn : ¬(noVz = true ∧ (wave3 δ (-k)).z = 0) := fun h' => h ⟨h'.1, h0.1 h'.2⟩
    simp only [projV, if_neg h, if_neg hn]
    cases p <;>
      simp only [projector, perpk, kradial, toroidal, poloidal, V3.mk.injEq, ex, ey, ez, e, e1, e2,
        e3, e4, map_sub, map_add, map_mul, map_neg, Complex.conj_ofReal, Complex.ofReal_neg, map_zero] <;>
      refine ⟨?_, ?_, ?_⟩ <;> first | trivial | ring

/-- The projection for all the modes. -/
def projPart (δ : Fin 3 → ℝ) (p : Projection) (noVz : Bool) : (Fin 3 → Fld (Fin 3)) →ₗ[ℝ] (Fin 3 → Fld (Fin 3)) where
  toFun u := components fun k => projV p noVz (wave3 δ k) (vec u k)
  map_add' a b := by
    have : (fun k => projV p noVz (wave3 δ k) (vec (a + b) k)) = fun k =>
        add (projV p noVz (wave3 δ k) (vec a k)) (projV p noVz (wave3 δ k) (vec b k)) := by
      funext k
      have := projV_linear p noVz (wave3 δ k) 1 1 (vec a k) (vec b k)
      simp only [one_mul] at this
      exact this
    rw [this]
    funext v k
    fin_cases v <;> rfl
  map_smul' c a := by
    have : (fun k => projV p noVz (wave3 δ k) (vec (c • a) k)) = fun k => smul c (projV p noVz (wave3 δ k) (vec a k)) := by
      funext k
      have := projV_linear p noVz (wave3 δ k) c 0 (vec a k) (vec a k)
      simp only [zero_mul, add_zero] at this
      exact this
    rw [this]
    funext v k
    fin_cases v <;> rfl

theorem vec_components (v : (Fin 3 → ℤ) → V3) : vec (components v) = v := rfl

theorem components_vec (u : Fin 3 → Fld (Fin 3)) : components (vec u) = u := by
  funext v k
  fin_cases v <;> rfl

theorem projPart_iff (δ : Fin 3 → ℝ) (p : Projection) (noVz : Bool) (u : Fin 3 → Fld (Fin 3)) :
    projPart δ p noVz u = u ↔ ∀ k, projV p noVz (wave3 δ k) (vec u k) = vec u k := by
  constructor
  · intro h k
    exact congrFun (congrArg vec h) k
  · intro h
    show components (fun k => projV p noVz (wave3 δ k) (vec u k)) = u
    rw [funext h, components_vec]

theorem projPart_idem (δ : Fin 3 → ℝ) (p : Projection) (noVz : Bool) (u : Fin 3 → Fld (Fin 3)) :
    projPart δ p noVz (projPart δ p noVz u) = projPart δ p noVz u :=
  (projPart_iff δ p noVz _).2 fun _ => projV_idem _ _ _ _

theorem projV_zero (p : Projection) (noVz : Bool) (k : K3) : projV p noVz k ⟨0, 0, 0⟩ = ⟨0, 0, 0⟩ := by
  have := projV_linear p noVz k 0 0 ⟨0, 0, 0⟩ ⟨0, 0, 0⟩
  simpa using this

theorem projPart_out {S : Finset (Fin 3 → ℤ)} {δ : Fin 3 → ℝ} (p : Projection) (noVz : Bool) {u : Fin 3 → Fld (Fin 3)}
    (h : ∀ c k, k ∉ S → u c k = 0) (c : Fin 3) (k : Fin 3 → ℤ) (hk : k ∉ S) : projPart δ p noVz u c k = 0 := by
  have e : vec u k = ⟨0, 0, 0⟩ := by simp only [vec, h _ k hk]
  fin_cases c <;> simp [projPart, components, e, projV_zero]

theorem projPart_real {S : Finset (Fin 3 → ℤ)} {δ : Fin 3 → ℝ} (p : Projection) (noVz : Bool) {u : Fin 3 → Fld (Fin 3)}
    (h : ∀ c, RealOn S (u c)) (c : Fin 3) : RealOn S (projPart δ p noVz u c) := by
  intro k hk
  refine ⟨(h 0 k hk).1, ?_⟩
  have e : vec u (-k) = ⟨(starRingEnd ℂ) (vec u k).x, (starRingEnd ℂ) (vec u k).y, (starRingEnd ℂ) (vec u k).z⟩ := by
    simp only [vec, (h _ k hk).2]
  have := projV_conj p noVz δ k (vec u k)
  rw [← e] at this
  fin_cases c
  · exact congrArg V3.x this
  · exact congrArg V3.y this
  · exact congrArg V3.z this

theorem admissible_iff {S : Finset (Fin 3 → ℤ)} (hS : Sym S) (δ : Fin 3 → ℝ) (p : Projection) (noVz : Bool) (u : Fin 3 → Fld (Fin 3)) :
    (realPart S u = u ∧ projPart δ p noVz u = u) ↔ Admissible S δ p noVz u := by
  rw [realPart_iff hS, projPart_iff]
  constructor
  · rintro ⟨⟨h1, h2⟩, h3⟩
    exact ⟨fun c => ⟨h1 c, h2 c⟩, fun k _ => h3 k⟩
  · rintro ⟨h1, h3⟩
    refine ⟨⟨fun c => (h1 c).1, fun c => (h1 c).2⟩, fun k => ?_⟩
    by_cases hk : k ∈ S
    · exact h3 k hk
    · have e : vec u k = ⟨0, 0, 0⟩ := by simp only [vec, fun c => (h1 c).2 k hk]
      rw [e, projV_zero]

/-- Projection on the admissible velocities. -/
def admPart (S : Finset (Fin 3 → ℤ)) (δ : Fin 3 → ℝ) (p : Projection) (noVz : Bool) :
    (Fin 3 → Fld (Fin 3)) →ₗ[ℝ] (Fin 3 → Fld (Fin 3)) := projPart δ p noVz ∘ₗ realPart S

theorem admPart_adm {S : Finset (Fin 3 → ℤ)} (hS : Sym S) (δ : Fin 3 → ℝ) (p : Projection) (noVz : Bool) (u : Fin 3 → Fld (Fin 3)) :
    Admissible S δ p noVz (admPart S δ p noVz u) :=
  ⟨fun c => ⟨projPart_real p noVz (realPart_real hS u) c, projPart_out p noVz (realPart_out S u) c⟩,
    fun _ _ => projV_idem _ _ _ _⟩

theorem admPart_iff {S : Finset (Fin 3 → ℤ)} (hS : Sym S) (δ : Fin 3 → ℝ) (p : Projection) (noVz : Bool) (u : Fin 3 → Fld (Fin 3)) :
    admPart S δ p noVz u = u ↔ Admissible S δ p noVz u := by
  constructor
  · intro h
    rw [← h]
    exact admPart_adm hS δ p noVz u
  · intro h
    obtain ⟨h1, h2⟩ := (admissible_iff hS δ p noVz u).2 h
    show projPart δ p noVz (realPart S u) = u
    rw [h1, h2]

theorem tend3d_eq (n : Fin 3 → ℕ) (S : Finset (Fin 3 → ℤ)) (δ : Fin 3 → ℝ) (f : Option ℝ) (p : Projection) (noVz : Bool)
    (u : Fin 3 → Fld (Fin 3)) :
    tend3d n S δ f p noVz u
      = projPart δ p noVz fun c k => if k ∈ S then components (lamb n S δ f (vec u)) c k else 0 := by
  show components _ = components _
  congr 1
  funext k
  by_cases hk : k ∈ S
  · simp only [ns3d, hk, if_true, projectState_v, vec, components]
  · simp only [ns3d, hk, if_false, vec, components, projV_zero]

theorem lamb_real {S : Finset (Fin 3 → ℤ)} (hS : Sym S) (n : Fin 3 → ℕ) (δ : Fin 3 → ℝ) (f : Option ℝ) {u : Fin 3 → Fld (Fin 3)}
    (hu : ∀ c, RealOn S (u c)) (c : Fin 3) : RealOn S fun k => if k ∈ S then components (lamb n S δ f (vec u)) c k else 0 := by
  have hg := fun c j => real_grid (n := n) (hu c) j
  have hS0 : ∀ k ∈ insert 0 S, -k ∈ insert 0 S := by
    intro k hk
    rcases mem_insert.1 hk with rfl | hk
    · simp
    · exact mem_insert_of_mem (hS k hk)
  have hu0 : ∀ c, ∀ k ∈ insert 0 S, k ≠ 0 → u c (-k) = (starRingEnd ℂ) (u c k) := by
    intro c k hk h0
    exact (hu c k ((mem_insert.1 hk).resolve_left h0)).2
  have hw : ∀ (p : V3 → ℂ) (_ : p = V3.x ∨ p = V3.y ∨ p = V3.z), RealOn (insert 0 S) fun k => p (omegaFft δ f (vec u) k) := by
    rintro p hp k hk
    refine ⟨hS0 k hk, ?_⟩
    by_cases h0 : k = 0
    · subst h0
      rcases hp with rfl | rfl | rfl <;> simp [omegaFft, curl, wave3]
    · have h0' : -k ≠ 0 := neg_ne_zero.2 h0
      have a0 := hu0 0 k hk h0
      have a1 := hu0 1 k hk h0
      have a2 := hu0 2 k hk h0
      rcases hp with rfl | rfl | rfl <;>
        · simp only [omegaFft, curl, wave3, vec, a0, a1, a2, h0, h0', if_false, map_add, map_sub, map_mul, Complex.conj_I,
            Complex.conj_ofReal, map_zero, Pi.neg_apply]
          push_cast
          ring
  have hx := fun j => real_grid (n := n) (hw V3.x (Or.inl rfl)) j
  have hy := fun j => real_grid (n := n) (hw V3.y (Or.inr (Or.inl rfl))) j
  have hz := fun j => real_grid (n := n) (hw V3.z (Or.inr (Or.inr rfl))) j
  have key : ∀ p : V3 → ℂ, (p = V3.x ∨ p = V3.y ∨ p = V3.z) →
      RealOn S fun k => fftCoef n (fun j => p (cross (gridVec n S (vec u) j) (gridVec n (insert 0 S) (omegaFft δ f (vec u)) j))) k := by
    rintro p (rfl | rfl | rfl) <;> refine real_of_fft hS fun j => ?_ <;>
      simp only [cross, gridVec, map_sub, map_mul, hx, hy, hz] <;>
      simp only [vec, hg]
  fin_cases c
  · exact real_congr (key V3.x (Or.inl rfl)) fun k hk => by simp [hk, components, lamb, fftVec]
  · exact real_congr (key V3.y (Or.inr (Or.inl rfl))) fun k hk => by simp [hk, components, lamb, fftVec]
  · exact real_congr (key V3.z (Or.inr (Or.inr rfl))) fun k hk => by simp [hk, components, lamb, fftVec]

theorem tend3d_adm {S : Finset (Fin 3 → ℤ)} (hS : Sym S) (n : Fin 3 → ℕ) (δ : Fin 3 → ℝ) (f : Option ℝ) (p : Projection) (noVz : Bool)
    {u : Fin 3 → Fld (Fin 3)} (hu : ∀ c, RealOn S (u c)) : Admissible S δ p noVz (tend3d n S δ f p noVz u) := by
  rw [tend3d_eq]
  exact ⟨fun c => ⟨projPart_real p noVz (lamb_real hS n δ f hu) c,
    projPart_out p noVz (fun c k hk => by simp [hk]) c⟩, fun _ _ => projV_idem _ _ _ _⟩

theorem cd_projV {E : Type*} [NormedAddCommGroup E] [NormedSpace ℝ E] {m : ℕ} {v : E → V3} (hx : ContDiff ℝ m fun a => (v a).x)
    (hy : ContDiff ℝ m fun a => (v a).y) (hz : ContDiff ℝ m fun a => (v a).z) (p : Projection) (noVz : Bool) (k : K3) :
    (ContDiff ℝ m fun a => (projV p noVz k (v a)).x) ∧ (ContDiff ℝ m fun a => (projV p noVz k (v a)).y) ∧
      ContDiff ℝ m fun a => (projV p noVz k (v a)).z := by
  have e : ∀ a, projV p noVz k (v a)
      = ⟨(projV p noVz k ⟨1, 0, 0⟩).x * (v a).x + (projV p noVz k ⟨0, 1, 0⟩).x * (v a).y + (projV p noVz k ⟨0, 0, 1⟩).x * (v a).z,
        (projV p noVz k ⟨1, 0, 0⟩).y * (v a).x + (projV p noVz k ⟨0, 1, 0⟩).y * (v a).y + (projV p noVz k ⟨0, 0, 1⟩).y * (v a).z,
        (projV p noVz k ⟨1, 0, 0⟩).z * (v a).x + (projV p noVz k ⟨0, 1, 0⟩).z * (v a).y + (projV p noVz k ⟨0, 0, 1⟩).z * (v a).z⟩ := by
    intro a
    have h1 := projV_linear p noVz k (v a).x (v a).y ⟨1, 0, 0⟩ ⟨0, 1, 0⟩
    have h2 := projV_linear p noVz k 1 (v a).z ⟨(v a).x, (v a).y, 0⟩ ⟨0, 0, 1⟩
    simp only [mul_one, mul_zero, add_zero, zero_add, one_mul] at h1 h2
    rw [show v a = ⟨(v a).x, (v a).y, (v a).z⟩ from rfl, h2, h1]
    simp only [V3.mk.injEq]
    refine ⟨?_, ?_, ?_⟩ <;> ring
  simp only [e]
  refine ⟨?_, ?_, ?_⟩ <;>
    exact ((contDiff_const.mul hx).add (contDiff_const.mul hy)).add (contDiff_const.mul hz)

theorem smooth_tend3d (n : Fin 3 → ℕ) (S : Finset (Fin 3 → ℤ)) (δ : Fin 3 → ℝ) (f : Option ℝ) (p : Projection) (noVz : Bool)
    (G : Finset (Fin 3 → ℤ)) (m : ℕ) (v : Fin 3) (k : Fin 3 → ℤ) :
    ContDiff ℝ m fun a : Arr (Fin 3 × G) => tend3d n S δ f p noVz (fields G a) v k := by
  have hf := fun v => cd_fields (V := Fin 3) G m v
  have hg := fun v => cd_grid (hf v) n S
  have hw : ∀ (c : V3 → ℂ) (_ : c = V3.x ∨ c = V3.y ∨ c = V3.z) k,
      ContDiff ℝ m fun a : Arr (Fin 3 × G) => c (omegaFft δ f (vec (fields G a)) k) := by
    rintro c (rfl | rfl | rfl) k
    · exact contDiff_const.mul ((contDiff_const.mul (hf 2 k)).sub (contDiff_const.mul (hf 1 k)))
    · exact contDiff_const.mul ((contDiff_const.mul (hf 0 k)).sub (contDiff_const.mul (hf 2 k)))
    · exact (contDiff_const.mul ((contDiff_const.mul (hf 1 k)).sub (contDiff_const.mul (hf 0 k)))).add contDiff_const
  have hx := cd_grid (hw V3.x (Or.inl rfl)) n (insert 0 S)
  have hy := cd_grid (hw V3.y (Or.inr (Or.inl rfl))) n (insert 0 S)
  have hz := cd_grid (hw V3.z (Or.inr (Or.inr rfl))) n (insert 0 S)
  have lx : ContDiff ℝ m fun a : Arr (Fin 3 × G) => (lamb n S δ f (vec (fields G a)) k).x :=
    cd_fft (fun j => ((hg 1 j).mul (hz j)).sub ((hg 2 j).mul (hy j))) k
  have ly : ContDiff ℝ m fun a : Arr (Fin 3 × G) => (lamb n S δ f (vec (fields G a)) k).y :=
    cd_fft (fun j => ((hg 2 j).mul (hx j)).sub ((hg 0 j).mul (hz j))) k
  have lz : ContDiff ℝ m fun a : Arr (Fin 3 × G) => (lamb n S δ f (vec (fields G a)) k).z :=
    cd_fft (fun j => ((hg 0 j).mul (hy j)).sub ((hg 1 j).mul (hx j))) k
  obtain ⟨px, py, pz⟩ := cd_projV lx ly lz p noVz (wave3 δ k)
  by_cases hk : k ∈ S
  · fin_cases v <;> simp only [tend3d, components, ns3d, hk, if_true, projectState_v]
    exacts [px, py, pz]
  · fin_cases v <;> simp only [tend3d, components, ns3d, hk, if_false] <;> exact contDiff_const

/-! ### The projection of the time steps changes nothing -/

section

variable {ι : Type*} [Fintype ι]

theorem rk_mem {W : Submodule ℝ (Arr ι)} {N : Arr ι → Arr ι} (hN : ∀ a ∈ W, N a ∈ W) {E E2 : Arr ι} (hE : ∀ a ∈ W, E * a ∈ W)
    (hE2 : ∀ a ∈ W, E2 * a ∈ W) {c : Scheme × ℕ} (hc : c ∈ orders) (h : ℝ) (ps pa pb : Arr ι) (H : Heap ι) (hs : H .state ∈ W) :
    timeStepRK c.1 (fun _ => N) (h : ℂ) E E2 ps pa pb H .state ∈ W := by
  simp only [orders, List.mem_cons, List.not_mem_nil, or_false] at hc
  rcases hc with rfl | rfl | rfl | rfl
  · rw [form_euler]
    exact hE _ (W.add_mem hs (W.smul_mem _ (hN _ hs)))
  · rw [form_rk2]
    exact W.add_mem (hE _ hs) (W.smul_mem _ (hE2 _ (hN _ (hE2 _ (W.add_mem hs (W.smul_mem _ (hN _ hs)))))))
  · rw [form_trapezoid]
    exact W.add_mem (hE _ (W.add_mem hs (W.smul_mem _ (hN _ hs))))
      (W.smul_mem _ (hN _ (hE _ (W.add_mem hs (W.smul_mem _ (hN _ hs))))))
  · rw [form_rk4]
    have h0 := hN _ hs
    have h1 := hE2 _ (W.add_mem hs (W.smul_mem (h / 2) h0))
    have h2 := W.add_mem (hE2 _ hs) (W.smul_mem (h / 2) (hN _ h1))
    have h3 := W.add_mem (hE _ hs) (W.smul_mem h (hE2 _ (hN _ h2)))
    exact W.add_mem (hE _ hs) (W.smul_mem _ (W.add_mem (W.add_mem (W.add_mem (hE _ h0) (W.smul_mem _ (hE2 _ (hN _ h1))))
      (W.smul_mem _ (hE2 _ (hN _ h2)))) (hN _ h3)))

theorem simulation3d_eq {W : Submodule ℝ (Arr ι)} {N : Arr ι → Arr ι} (hN : ∀ a ∈ W, N a ∈ W) {f : Arr ι}
    (hE : ∀ (τ : ℝ), ∀ a ∈ W, expLin f (τ : ℂ) * a ∈ W) {mask : ι → Bool} (hm : ∀ a ∈ W, ∀ i, mask i = true → a i = 0)
    {project : Arr ι → Arr ι} (hp : ∀ a ∈ W, project a = a) {c : Scheme × ℕ} (hc : c ∈ orders) (ps pa pb : ℕ → Arr ι) (heap : Heap ι)
    (g1 g2 : Arr ι) (cfl : Bool) {u0 : Arr ι} (hu0 : u0 ∈ W) (dt : ℕ → ℝ) (hdt : ∀ k, 0 < dt k)
    (hcst : cfl = false → ∀ k, dt k = dt 0) (k : ℕ) :
    simulation3d project c.1 N f mask ps pa pb heap g1 g2 cfl u0 dt k = simulation c.1 N f mask ps pa pb heap g1 g2 cfl u0 dt k ∧
      (simulation c.1 N f mask ps pa pb heap g1 g2 cfl u0 dt k).heap .state ∈ W := by
  induction k with
  | zero =>
    refine ⟨rfl, ?_⟩
    simpa [simulation] using hu0
  | succ k ih =>
    obtain ⟨e, hs⟩ := ih
    have hco := simulation_coefs c.1 N f mask ps pa pb heap g1 g2 cfl u0 dt hdt hcst k
    have hmem := rk_mem hN (E := expLin f (dt k : ℂ)) (E2 := expLin f ((dt k / 2 : ℝ) : ℂ)) (hE _) (hE _) hc (dt k) (ps k) (pa k) (pb k) _ hs
    constructor
    · simp only [simulation3d, simulation, oneStep3d, Schemes.oneStep, e]
      congr 2
      rw [hco, hp _ hmem]
      funext b
      by_cases hb : b = .state
      · rw [hb, set_same]
      · rw [set_other _ _ _ _ hb]
    · simp only [simulation, Schemes.oneStep, Schemes.dealias, hco, set_same]
      convert hmem using 1
      funext i
      split_ifs with hi
      · exact (hm _ hmem i hi).symm
      · rfl

end

theorem converge3d {V : Type*} [Fintype V] {S : Finset (Fin 3 → ℤ)} {δ : Fin 3 → ℝ} {nu : Dissip.Nu}
    {tend : (V → Fld (Fin 3)) → V → Fld (Fin 3)} {T : ℝ} {u : ℝ → V → Fld (Fin 3)}
    (hconv : SimulationsConverge S δ nu tend T u) (Q : (V → Fld (Fin 3)) →ₗ[ℝ] (V → Fld (Fin 3)))
    (hQS : ∀ u v k, k ∉ S → Q u v k = 0) (hQt : ∀ u, Q u = u → Q (tend u) = tend u)
    (hQf : ∀ (g : (Fin 3 → ℤ) → ℝ), (∀ k, g (-k) = g k) → ∀ u, Q u = u → Q (fun v k => (g k : ℂ) * u v k) = fun v k => (g k : ℂ) * u v k)
    {project : (G : Finset (Fin 3 → ℤ)) → Arr (V × G) → Arr (V × G)}
    (hp : ∀ G : Finset (Fin 3 → ℤ), S ⊆ G → ∀ a, Q (fields G a) = fields G a → project G a = a) (hu0 : Q (u 0) = u 0) :
    SimulationsConverge3d S δ nu project tend T u := by
  intro G hG c hc ps pa pb heap g1 g2 cfl
  obtain ⟨C, h0c, hpos, hC⟩ := hconv G hG c hc ps pa pb heap g1 g2 cfl
  refine ⟨C, h0c, hpos, fun h dt hh hdt hcst k hk => ?_⟩
  let W : Submodule ℝ (Arr (V × G)) := LinearMap.eqLocus (Q ∘ₗ fieldsL G) (fieldsL G)
  have hW : ∀ a, a ∈ W ↔ Q (fields G a) = fields G a := fun a => Iff.rfl
  have hout : ∀ {u}, Q u = u → ∀ c k, k ∉ S → u c k = 0 := fun {u} hu c k hk => by rw [← hu]; exact hQS u c k hk
  have hWarr : ∀ {u}, Q u = u → array G u ∈ W := fun {u} hu => by
    rw [hW, fields_array hG (hout hu)]
    exact hu
  have key := simulation3d_eq (W := W) (N := onArrays G tend) (f := freqDiss G δ nu) (mask := truncated G S) (project := project G)
    (fun a ha => hWarr (hQt _ ((hW a).1 ha)))
    (fun τ a ha => by
      have ha' := (hW a).1 ha
      have e : fields G (expLin (freqDiss G δ nu) (τ : ℂ) * a)
          = fun c k => (Real.exp (-τ * Dissip.fd nu (waveSq δ k)) : ℂ) * fields G a c k := by
        funext c k
        by_cases hk : k ∈ G
        · simp [fields, hk, expLin, freqDiss]
        · simp [fields, hk]
      rw [hW, e]
      refine hQf (fun k => Real.exp (-τ * Dissip.fd nu (waveSq δ k))) (fun k => ?_) _ ha'
      rw [waveSq_neg])
    (fun a ha i hi => by
      have := hout ((hW a).1 ha) i.1 i.2.1 (by simpa [truncated] using hi)
      simpa [fields] using this)
    (fun a ha => hp G hG a ((hW a).1 ha))
    hc ps pa pb heap g1 g2 cfl (u0 := array G (u 0)) (hWarr hu0) dt (fun k => (hdt k).1) hcst k
  beta_reduce
  rw [key.1]
  exact hC h dt hh hdt hcst k hk

end

end Verif.EndToEnd
