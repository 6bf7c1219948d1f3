import Verif.EndToEnd.Props

/-!
# C87: stratified flows in 3D
-/

set_option linter.unusedSectionVars false

namespace Verif.EndToEnd

open Verif.Fourier Verif.Vectors Verif.Energy Verif.Galerkin Verif.Schemes Verif.Convergence Finset

noncomputable section

theorem vec_velocity (u : Fin 4 → Fld (Fin 3)) : vec (velocity u) = fun k => (modeState u k).v := rfl

/-- The four variables of a velocity and a buoyancy. -/
def join (v : Fin 3 → Fld (Fin 3)) (b : Fld (Fin 3)) : Fin 4 → Fld (Fin 3) := ![v 0, v 1, v 2, b]

theorem velocity_join (v : Fin 3 → Fld (Fin 3)) (b : Fld (Fin 3)) : velocity (join v b) = v := by
  funext c
  fin_cases c <;> rfl

theorem join_velocity (u : Fin 4 → Fld (Fin 3)) : join (velocity u) (u 3) = u := by
  funext c
  fin_cases c <;> rfl

/-- Projection on the admissible velocities and buoyancies. -/
def admPart4 (S : Finset (Fin 3 → ℤ)) (δ : Fin 3 → ℝ) (p : Projection) : (Fin 4 → Fld (Fin 3)) →ₗ[ℝ] (Fin 4 → Fld (Fin 3)) where
  toFun u := join (admPart S δ p false (velocity u)) (realPart S (fun _ : Unit => u 3) ())
  map_add' a b := by
    have e1 : velocity (a + b) = velocity a + velocity b := by funext c; fin_cases c <;> rfl
    have e2 : (fun _ : Unit => (a + b) 3) = (fun _ : Unit => a 3) + fun _ : Unit => b 3 := rfl
    rw [e1, e2, map_add, map_add]
    funext c
    fin_cases c <;> rfl
  map_smul' x a := by
    have e1 : velocity (x • a) = x • velocity a := by funext c; fin_cases c <;> rfl
    have e2 : (fun _ : Unit => (x • a) 3) = x • fun _ : Unit => a 3 := rfl
    rw [e1, e2, map_smul, map_smul]
    funext c
    fin_cases c <;> rfl

/-- Admissible velocity and buoyancy. -/
def Adm4 (S : Finset (Fin 3 → ℤ)) (δ : Fin 3 → ℝ) (p : Projection) (u : Fin 4 → Fld (Fin 3)) : Prop :=
  Admissible S δ p false (velocity u) ∧ RealField S (u 3)

theorem admPart4_iff {S : Finset (Fin 3 → ℤ)} (hS : Sym S) (δ : Fin 3 → ℝ) (p : Projection) (u : Fin 4 → Fld (Fin 3)) :
    admPart4 S δ p u = u ↔ Adm4 S δ p u := by
  have e : admPart4 S δ p u = join (admPart S δ p false (velocity u)) (realPart S (fun _ : Unit => u 3) ()) := rfl
  have hb : realPart S (fun _ : Unit => u 3) () = u 3 ↔ RealField S (u 3) := by
    have := realPart_iff hS (fun _ : Unit => u 3)
    constructor
    · intro h
      have := this.1 (funext fun _ => h)
      exact ⟨this.1 (), this.2 ()⟩
    · intro h
      exact congrFun (this.2 ⟨fun _ => h.1, fun _ => h.2⟩) ()
  constructor
  · intro h
    rw [e] at h
    have h1 : admPart S δ p false (velocity u) = velocity u := by
      have := congrArg velocity h
      rwa [velocity_join] at this
    exact ⟨(admPart_iff hS δ p false _).1 h1, hb.1 (congrFun h 3)⟩
  · rintro ⟨h1, h2⟩
    rw [e, (admPart_iff hS δ p false _).2 h1, hb.2 h2, join_velocity]

theorem admPart4_adm {S : Finset (Fin 3 → ℤ)} (hS : Sym S) (δ : Fin 3 → ℝ) (p : Projection) (u : Fin 4 → Fld (Fin 3)) :
    Adm4 S δ p (admPart4 S δ p u) := by
  have e : admPart4 S δ p u = join (admPart S δ p false (velocity u)) (realPart S (fun _ : Unit => u 3) ()) := rfl
  rw [e]
  refine ⟨?_, ?_⟩
  · rw [velocity_join]
    exact admPart_adm hS δ p false _
  · exact ⟨realPart_real hS (fun _ : Unit => u 3) (), realPart_out S (fun _ : Unit => u 3) ()⟩

theorem adm4_out {S : Finset (Fin 3 → ℤ)} {δ : Fin 3 → ℝ} {p : Projection} {u : Fin 4 → Fld (Fin 3)} (h : Adm4 S δ p u) (c : Fin 4)
    (k : Fin 3 → ℤ) (hk : k ∉ S) : u c k = 0 := by
  fin_cases c
  · exact (h.1.1 0).2 k hk
  · exact (h.1.1 1).2 k hk
  · exact (h.1.1 2).2 k hk
  · exact h.2.2 k hk

theorem adm4_mul {S : Finset (Fin 3 → ℤ)} {δ : Fin 3 → ℝ} {p : Projection} {u : Fin 4 → Fld (Fin 3)} (hu : Adm4 S δ p u)
    (g : (Fin 3 → ℤ) → ℝ) (hg : ∀ k, g (-k) = g k) : Adm4 S δ p fun c k => (g k : ℂ) * u c k := by
  have e : velocity (fun c k => (g k : ℂ) * u c k) = fun c k => (g k : ℂ) * velocity u c k := by
    funext c k
    fin_cases c <;> rfl
  refine ⟨?_, hu.2.1.mul g hg, fun k hk => by simp only [hu.2.2 k hk, mul_zero]⟩
  rw [e]
  refine ⟨fun c => ⟨(hu.1.1 c).1.mul g hg, fun k hk => by simp only [(hu.1.1 c).2 k hk, mul_zero]⟩, fun k hk => ?_⟩
  have := projV_linear p false (wave3 δ k) (g k) 0 (vec (velocity u) k) (vec (velocity u) k)
  simp only [zero_mul, add_zero, hu.1.2 k hk] at this
  exact this

theorem projV_false (p : Projection) (k : K3) (v : V3) : projV p false k v = projector p k v := by simp [projV]

/-- The tendencies at the modes kept. -/
theorem tend4_eq (n : Fin 3 → ℕ) (S : Finset (Fin 3 → ℤ)) (δ : Fin 3 → ℝ) (f : Option ℝ) (N : ℝ) (p : Projection)
    (u : Fin 4 → Fld (Fin 3)) :
    tend3dStrat n S δ f N p false u = join
      (projPart δ p false fun c k => (if k ∈ S then components (lamb n S δ f (vec (velocity u))) c k else 0)
        + if k ∈ S then (![0, 0, u 3 k] : Fin 3 → ℂ) c else 0)
      (fun k => if k ∈ S then -divVb n S δ (vec (velocity u)) (u 3) k - N ^ 2 * u 2 k else 0) := by
  have e : ∀ k, ns3dStrat n S δ f N p false (fun k => (modeState u k).v) (u 3) k
      = ⟨projV p false (wave3 δ k) (vec (fun c k => (if k ∈ S then components (lamb n S δ f (vec (velocity u))) c k else 0)
        + if k ∈ S then (![0, 0, u 3 k] : Fin 3 → ℂ) c else 0) k),
        some (if k ∈ S then -divVb n S δ (vec (velocity u)) (u 3) k - N ^ 2 * u 2 k else 0)⟩ := by
    intro k
    by_cases hk : k ∈ S
    · simp only [ns3dStrat, hk, if_true, projectState, Bool.false_eq_true, false_and, if_false, projV_false, vec, components,
        ← vec_velocity]
      simp [velocity]
      exact Or.inl rfl
    · simp only [ns3dStrat, hk, if_false, projV_false, vec, add_zero]
      rw [← projV_false, projV_zero]
  funext c k
  fin_cases c
  · show (ns3dStrat n S δ f N p false (fun k => (modeState u k).v) (u 3) k).v.x = _
    rw [e]
    rfl
  · show (ns3dStrat n S δ f N p false (fun k => (modeState u k).v) (u 3) k).v.y = _
    rw [e]
    rfl
  · show (ns3dStrat n S δ f N p false (fun k => (modeState u k).v) (u 3) k).v.z = _
    rw [e]
    rfl
  · show (ns3dStrat n S δ f N p false (fun k => (modeState u k).v) (u 3) k).b.getD 0 = _
    rw [e]
    rfl

theorem tend4_adm {S : Finset (Fin 3 → ℤ)} (hS : Sym S) (n : Fin 3 → ℕ) (δ : Fin 3 → ℝ) (f : Option ℝ) (N : ℝ) (p : Projection)
    {u : Fin 4 → Fld (Fin 3)} (hu : Adm4 S δ p u) : Adm4 S δ p (tend3dStrat n S δ f N p false u) := by
  rw [tend4_eq]
  have hv : ∀ c, RealOn S (velocity u c) := fun c => (hu.1.1 c).1
  refine ⟨?_, ?_⟩
  · rw [velocity_join]
    refine ⟨fun c => ⟨projPart_real p false (fun c => real_add (lamb_real hS n δ f hv c) ?_) c,
      projPart_out p false (fun c k hk => by simp [hk]) c⟩, fun _ _ => projV_idem _ _ _ _⟩
    intro k hk
    refine ⟨hS k hk, ?_⟩
    have := (hu.2.1 k hk).2
    fin_cases c <;> simp [hk, hS k hk, this]
  · refine ⟨?_, fun k hk => by simp [join, hk]⟩
    have h2 : RealOn S (u 2) := hv 2
    have hg := fun c j => real_grid (n := n) (hv c) j
    have hb := fun j => real_grid (n := n) hu.2.1 j
    have hd : RealOn S fun k => divVb n S δ (vec (velocity u)) (u 3) k := by
      intro k hk
      refine ⟨hS k hk, ?_⟩
      have h0 : ∀ (q : V3 → ℂ) (_ : q = V3.x ∨ q = V3.y ∨ q = V3.z),
          fftCoef n (fun j => q (gridVec n S (vec (velocity u)) j) * gridVal n S (u 3) j) (-k)
            = (starRingEnd ℂ) (fftCoef n (fun j => q (gridVec n S (vec (velocity u)) j) * gridVal n S (u 3) j) k) := by
        rintro q (rfl | rfl | rfl) <;> refine fft_real n (fun j => ?_) k <;> rw [map_mul, hb]
        · exact congrArg (· * _) (hg 0 j)
        · exact congrArg (· * _) (hg 1 j)
        · exact congrArg (· * _) (hg 2 j)
      have hx := h0 V3.x (Or.inl rfl)
      have hy := h0 V3.y (Or.inr (Or.inl rfl))
      have hz := h0 V3.z (Or.inr (Or.inr rfl))
      simp only [divVb, fftVec, hx, hy, hz, map_mul, map_add, Complex.conj_I, Complex.conj_ofReal, wave3, Pi.neg_apply]
      push_cast
      ring
    intro k hk
    refine ⟨hS k hk, ?_⟩
    show (if -k ∈ S then -divVb n S δ (vec (velocity u)) (u 3) (-k) - N ^ 2 * u 2 (-k) else 0)
      = (starRingEnd ℂ) (if k ∈ S then -divVb n S δ (vec (velocity u)) (u 3) k - N ^ 2 * u 2 k else 0)
    simp only [hk, hS k hk, if_true, (hd k hk).2, (h2 k hk).2, map_sub, map_neg, map_mul, map_pow, Complex.conj_ofReal]

theorem smooth_tend4 (n : Fin 3 → ℕ) (S : Finset (Fin 3 → ℤ)) (δ : Fin 3 → ℝ) (f : Option ℝ) (N : ℝ) (p : Projection)
    (G : Finset (Fin 3 → ℤ)) (m : ℕ) (v : Fin 4) (k : Fin 3 → ℤ) :
    ContDiff ℝ m fun a : Arr (Fin 4 × G) => tend3dStrat n S δ f N p false (fields G a) v k := by
  have hf := fun v => cd_fields (V := Fin 4) G m v
  have hg := fun v => cd_grid (hf v) n S
  have hw : ∀ (c : V3 → ℂ) (_ : c = V3.x ∨ c = V3.y ∨ c = V3.z) k,
      ContDiff ℝ m fun a : Arr (Fin 4 × G) => c (omegaFft δ f (fun k => (modeState (fields G a) k).v) k) := by
    rintro c (rfl | rfl | rfl) k
    · exact contDiff_const.mul ((contDiff_const.mul (hf 2 k)).sub (contDiff_const.mul (hf 1 k)))
    · exact contDiff_const.mul ((contDiff_const.mul (hf 0 k)).sub (contDiff_const.mul (hf 2 k)))
    · exact (contDiff_const.mul ((contDiff_const.mul (hf 1 k)).sub (contDiff_const.mul (hf 0 k)))).add contDiff_const
  have hx := cd_grid (hw V3.x (Or.inl rfl)) n (insert 0 S)
  have hy := cd_grid (hw V3.y (Or.inr (Or.inl rfl))) n (insert 0 S)
  have hz := cd_grid (hw V3.z (Or.inr (Or.inr rfl))) n (insert 0 S)
  have lx : ContDiff ℝ m fun a : Arr (Fin 4 × G) => (lamb n S δ f (fun k => (modeState (fields G a) k).v) k).x :=
    cd_fft (fun j => ((hg 1 j).mul (hz j)).sub ((hg 2 j).mul (hy j))) k
  have ly : ContDiff ℝ m fun a : Arr (Fin 4 × G) => (lamb n S δ f (fun k => (modeState (fields G a) k).v) k).y :=
    cd_fft (fun j => ((hg 2 j).mul (hx j)).sub ((hg 0 j).mul (hz j))) k
  have lz : ContDiff ℝ m fun a : Arr (Fin 4 × G) => (lamb n S δ f (fun k => (modeState (fields G a) k).v) k).z + fields G a 3 k :=
    (cd_fft (fun j => ((hg 0 j).mul (hy j)).sub ((hg 1 j).mul (hx j))) k).add (hf 3 k)
  obtain ⟨px, py, pz⟩ := cd_projV (v := fun a : Arr (Fin 4 × G) =>
    ⟨(lamb n S δ f (fun k => (modeState (fields G a) k).v) k).x, (lamb n S δ f (fun k => (modeState (fields G a) k).v) k).y,
      (lamb n S δ f (fun k => (modeState (fields G a) k).v) k).z + fields G a 3 k⟩) lx ly lz p false (wave3 δ k)
  have hd : ContDiff ℝ m fun a : Arr (Fin 4 × G) => divVb n S δ (fun k => (modeState (fields G a) k).v) (fields G a 3) k := by
    refine contDiff_const.mul (((contDiff_const.mul ?_).add (contDiff_const.mul ?_)).add (contDiff_const.mul ?_))
    · exact cd_fft (fun j => (hg 0 j).mul (hg 3 j)) k
    · exact cd_fft (fun j => (hg 1 j).mul (hg 3 j)) k
    · exact cd_fft (fun j => (hg 2 j).mul (hg 3 j)) k
  by_cases hk : k ∈ S
  · fin_cases v <;> simp only [tend3dStrat, components4, ns3dStrat, hk, if_true, projectState_v]
    · exact px
    · exact py
    · exact pz
    · simp only [projectState, Bool.false_eq_true, false_and, if_false, Option.getD_some]
      exact hd.neg.sub (contDiff_const.mul (hf 2 k))
  · fin_cases v <;> simp only [tend3dStrat, components4, ns3dStrat, hk, if_false, Option.getD_some] <;> exact contDiff_const

theorem tend4_energy {n : Fin 3 → ℕ} (hn : ∀ d, 0 < n d) {S : Finset (Fin 3 → ℤ)} (hS : TriadExact n S) (δ : Fin 3 → ℝ) (f : Option ℝ)
    (N : ℝ) (p : Projection) {u : Fin 4 → Fld (Fin 3)} (hu : Adm4 S δ p u) :
    ∑ v, ∑ k ∈ S, (1 : ℝ) * (tend3dStrat n S δ f N p false u v k * (starRingEnd ℂ) (u v k)).re
      ≤ (1 + N ^ 2) * (1 + ∑ v, ∑ k ∈ S, (1 : ℝ) * ‖u v k‖ ^ 2) := by
  have hreal : RealVecOn S fun k => (modeState u k).v := ⟨(hu.1.1 0).1, (hu.1.1 1).1, (hu.1.1 2).1⟩
  have hproj : ∀ k ∈ S, projectState p false (wave3 δ k) ⟨(modeState u k).v, some (u 3 k)⟩ = ⟨(modeState u k).v, some (u 3 k)⟩ := by
    intro k hk
    have := hu.1.2 k hk
    rw [projV_false] at this
    simp only [projectState, Bool.false_eq_true, false_and, if_false]
    rw [ModeState.mk.injEq]
    exact ⟨this, rfl⟩
  have h1 := strat_velocity_work n S δ f N p false (fun k => (modeState u k).v) (u 3) hreal hproj
  have h2 := strat_buoyancy_work hn hS δ f N p false (fun k => (modeState u k).v) (u 3) hu.2.1 hproj
  have e : ∑ v, ∑ k ∈ S, (1 : ℝ) * (tend3dStrat n S δ f N p false u v k * (starRingEnd ℂ) (u v k)).re
      = rateV S (fun k => (modeState u k).v) (fun k => (ns3dStrat n S δ f N p false (fun k => (modeState u k).v) (u 3) k).v)
        + rate S (u 3) (fun k => (ns3dStrat n S δ f N p false (fun k => (modeState u k).v) (u 3) k).b.getD 0) := by
    simp only [rateV, rate, Vectors.inner, Complex.add_re, sum_add_distrib, Fin.sum_univ_four, one_mul]
    rfl
  rw [e, h1, h2]
  have hb : |∑ k ∈ S, (u 3 k * (starRingEnd ℂ) (modeState u k).v.z).re| ≤ ∑ v, ∑ k ∈ S, (1 : ℝ) * ‖u v k‖ ^ 2 := by
    refine (abs_sum_le_sum_abs _ _).trans ?_
    simp only [Fin.sum_univ_four, one_mul, ← sum_add_distrib]
    refine sum_le_sum fun k _ => ?_
    have h := Complex.abs_re_le_norm (u 3 k * (starRingEnd ℂ) (modeState u k).v.z)
    rw [norm_mul, Complex.norm_conj] at h
    refine h.trans ?_
    show ‖u 3 k‖ * ‖u 2 k‖ ≤ _
    nlinarith [sq_nonneg (‖u 3 k‖ - ‖u 2 k‖), sq_nonneg ‖u 0 k‖, sq_nonneg ‖u 1 k‖, sq_nonneg ‖u 2 k‖, sq_nonneg ‖u 3 k‖]
  have hb' := abs_le.1 hb
  have hN := sq_nonneg N
  nlinarith [hb'.1, hb'.2]

/-- C87, ns3d.strat (and ns3d.bouss, `N = 0`): the same for the velocity and the buoyancy, for every Brunt-Väisälä frequency, every
Coriolis parameter and every projection of the velocity. -/
theorem C87_ns3d_strat {n : Fin 3 → ℕ} (hn : ∀ d, 0 < n d) {S : Finset (Fin 3 → ℤ)} (hS : NoAlias n S) (δ : Fin 3 → ℝ) (f : Option ℝ)
    (N : ℝ) (p : Projection) {nu : Dissip.Nu} (hnu : Nu.Ok nu) {F : Fin 4 → Fld (Fin 3)}
    (hF : Admissible S δ p false (velocity F) ∧ RealField S (F 3)) {u0 : Fin 4 → Fld (Fin 3)}
    (h0 : Admissible S δ p false (velocity u0) ∧ RealField S (u0 3)) {T : ℝ} (hT : 0 ≤ T) :
    ∃ u : ℝ → Fin 4 → Fld (Fin 3), u 0 = u0 ∧ Flow3Strat S δ (f.getD 0) N p nu F T u ∧
      (∀ u', u' 0 = u0 → Flow3Strat S δ (f.getD 0) N p nu F T u' → ∀ t ∈ Set.Icc 0 T, u' t = u t) ∧
      SimulationsConverge3d S δ nu (fun G => project3dStrat G δ p false) (forced F (tend3dStrat n S δ f N p false)) T u := by
  have hsym := sym_of_real h0.2
  have htriad := SpectBudget.triad_of_noAlias hS h0.2.1
  have hiff := admPart4_iff hsym δ p
  have hgneg : ∀ k, Dissip.fd nu (waveSq δ (-k)) = Dissip.fd nu (waveSq δ k) := fun k => by rw [waveSq_neg]
  obtain ⟨u, hu0, hQ, hder, hconv⟩ := end_to_end_forced S δ hnu (tend := tend3dStrat n S δ f N p false) (smooth_tend4 n S δ f N p)
    (admPart4 S δ p) (fun u c k hk => adm4_out (admPart4_adm hsym δ p u) c k hk)
    (fun u => (hiff _).2 (admPart4_adm hsym δ p u))
    (fun u hu => (hiff _).2 (tend4_adm hsym n δ f N p ((hiff u).1 hu)))
    (fun u hu => (hiff _).2 (adm4_mul ((hiff u).1 hu) _ hgneg))
    (w := fun _ _ => 1) (fun _ _ => one_pos) (c := 1 + N ^ 2) (by positivity)
    (fun u hu => tend4_energy hn htriad δ f N p ((hiff u).1 hu))
    (F := F) ((hiff _).2 hF) (u0 := u0) ((hiff _).2 h0) hT
  have hdiv : ∀ {a : Fin 4 → Fld (Fin 3)}, Adm4 S δ p a → ∀ k ∈ S, kdot (wave3 δ k) (vec (velocity a) k) = 0 := by
    intro a ha k hk
    rw [← ha.1.2 k hk, projV_false]
    cases p
    · exact C28_orthogonal _ _
    · exact (C29_parts_divergence_free _ _).2
    · exact (C29_parts_divergence_free _ _).1
  have hfor : ∀ (a : Fin 4 → Fld (Fin 3)), Adm4 S δ p a → ∀ k ∈ S,
      (∀ c, velocity (fun c k => forced F (tend3dStrat n S δ f N p false) a c k - dissipation δ nu (a c) k) c k
        = components (fun k => projector p (wave3 δ k)
            (add (navierStokes S δ (f.getD 0) (vec (velocity a)) k) ⟨0, 0, a 3 k⟩)) c k
          - dissipation δ nu (velocity a c) k + velocity F c k) ∧
      forced F (tend3dStrat n S δ f N p false) a 3 k - dissipation δ nu (a 3) k
        = -advect S δ (velocity a) (a 3) k - N ^ 2 * a 2 k - dissipation δ nu (a 3) k + F 3 k := by
    intro a ha k hk
    obtain ⟨e1, e2⟩ := C57_ns3d_strat hn hS δ f N p (vec (velocity a)) (a 3) (hdiv ha) hk
    constructor
    · intro c
      have ht : velocity (tend3dStrat n S δ f N p false a) c k
          = components (fun k => (ns3dStrat n S δ f N p false (vec (velocity a)) (a 3) k).v) c k := by
        fin_cases c <;> rfl
      have hv : velocity (fun c k => forced F (tend3dStrat n S δ f N p false) a c k - dissipation δ nu (a c) k) c k
          = velocity (tend3dStrat n S δ f N p false a) c k + velocity F c k - dissipation δ nu (velocity a c) k := by
        fin_cases c <;> rfl
      have hc : components (fun k => (ns3dStrat n S δ f N p false (vec (velocity a)) (a 3) k).v) c k
          = components (fun k => projector p (wave3 δ k)
            (add (navierStokes S δ (f.getD 0) (vec (velocity a)) k) ⟨0, 0, a 3 k⟩)) c k := by
        fin_cases c
        · exact congrArg V3.x e1
        · exact congrArg V3.y e1
        · exact congrArg V3.z e1
      rw [hv, ht, hc]
      ring
    · have ht : tend3dStrat n S δ f N p false a 3 k = (ns3dStrat n S δ f N p false (vec (velocity a)) (a 3) k).b.getD 0 := rfl
      have hc : comp (vec (velocity a)) = velocity a := by
        funext c
        fin_cases c <;> rfl
      rw [forced, ht, e2, hc, Option.getD_some]
      show -advect S δ (velocity a) (a 3) k - N ^ 2 * a 2 k + F 3 k - dissipation δ nu (a 3) k = _
      ring
  have hadm := fun t ht => (hiff (u t)).1 (hQ t ht)
  refine ⟨u, hu0, ⟨hadm, fun t ht c k hk => ?_, fun t ht k hk => (hder t ht 3 k).congr_deriv (hfor (u t) (hadm t ht) k hk).2⟩, ?_, ?_⟩
  · have := (hfor (u t) (hadm t ht) k hk).1 c
    rw [← this]
    fin_cases c
    · exact hder t ht 0 k
    · exact hder t ht 1 k
    · exact hder t ht 2 k
  · intro u' h0' hflow t ht
    refine end_unique S δ (smooth_forced (smooth_tend4 n S δ f N p) F) (nu := nu) (T := T) (u := u') (u' := u)
      (fun t ht c k hk => adm4_out (hflow.adm t ht) c k hk) (fun t ht c k hk => adm4_out (hadm t ht) c k hk)
      (fun t ht c k hk => ?_) (fun t ht v k _ => hder t ht v k) (by rw [hu0, h0']) t ht
    obtain ⟨e1, e2⟩ := hfor (u' t) (hflow.adm t ht) k hk
    fin_cases c
    · exact (hflow.eqv t ht 0 k hk).congr_deriv (e1 0).symm
    · exact (hflow.eqv t ht 1 k hk).congr_deriv (e1 1).symm
    · exact (hflow.eqv t ht 2 k hk).congr_deriv (e1 2).symm
    · exact (hflow.eqb t ht k hk).congr_deriv e2.symm
  · refine converge3d hconv (admPart4 S δ p) (fun u c k hk => adm4_out (admPart4_adm hsym δ p u) c k hk) ?_
      (fun g hg u hu => (hiff _).2 (adm4_mul ((hiff u).1 hu) g hg)) ?_ (by rw [hu0]; exact (hiff _).2 h0)
    · intro u hu
      have e : forced F (tend3dStrat n S δ f N p false) u = tend3dStrat n S δ f N p false u + F := rfl
      rw [e, map_add, (hiff _).2 (tend4_adm hsym n δ f N p ((hiff u).1 hu)), (hiff F).2 hF]
    · intro G hG a ha
      have ha' := (hiff _).1 ha
      have e : (fun k => projectState p false (wave3 δ k) (modeState (fields G a) k)) = modeState (fields G a) := by
        funext k
        have h1 := (projPart_iff δ p false _).1 ((admissible_iff hsym δ p false _).2 ha'.1).2 k
        rw [projV_false] at h1
        simp only [projectState, Bool.false_eq_true, false_and, if_false, modeState]
        rw [ModeState.mk.injEq]
        exact ⟨h1, rfl⟩
      have e2 : components4 (modeState (fields G a)) = fields G a := by
        funext c k
        fin_cases c <;> rfl
      rw [project3dStrat, e, e2, array_fields]

/-- A stratified state which meets the hypotheses: a vertical shear and a buoyancy. -/
example : Admissible box (fun _ => 1) .none false (velocity
      ![fun k => if k ∈ box ∧ k 0 = 0 ∧ k 1 = 0 then 1 else 0, fun _ => 0, fun _ => 0, fun k => if k ∈ box then 1 else 0]) ∧
    RealField box fun k : Fin 3 → ℤ => if k ∈ (box : Finset (Fin 3 → ℤ)) then (1 : ℂ) else 0 := by
  refine ⟨?_, box_real⟩
  rw [C87_admissible_default]
  constructor
  · intro c
    fin_cases c
    · refine ⟨fun k hk => ⟨box_neg hk, ?_⟩, fun k hk => by simp [hk, velocity]⟩
      simp [hk, box_neg hk, apply_ite, velocity]
    · exact ⟨fun k hk => ⟨box_neg hk, by simp [velocity]⟩, fun k _ => rfl⟩
    · exact ⟨fun k hk => ⟨box_neg hk, by simp [velocity]⟩, fun k _ => rfl⟩
  · intro k hk
    by_cases h : k 0 = 0 <;> simp [pd, h, velocity]

end

end Verif.EndToEnd
