import Verif.Symmetry.Mirror

/-! # C98: the tendencies in three dimensions and the symmetries of the box -/

set_option linter.unusedSectionVars false

namespace Verif.Symmetry

open Verif.Fourier Verif.Vectors Verif.Energy Verif.Galerkin Verif.Schemes Verif.EndToEnd Finset

noncomputable section

/-- The components. -/
def cv (w : V3) : Fin 3 → ℂ := ![w.x, w.y, w.z]
def kv (k : K3) : Fin 3 → ℝ := ![k.x, k.y, k.z]

theorem cv_ext {v w : V3} (h : ∀ d, cv v d = cv w d) : v = w := by
  have h0 : v.x = w.x := h 0
  have h1 : v.y = w.y := h 1
  have h2 : v.z = w.z := h 2
  cases v; cases w
  simp_all

theorem comp_cv (v : (Fin 3 → ℤ) → V3) (d : Fin 3) (k : Fin 3 → ℤ) : comp v d k = cv (v k) d := by fin_cases d <;> rfl

/-- The image of a vector. -/
def turn (g : Sym (Fin 3)) (w : V3) : V3 := ⟨g.σ 0 * cv w (g.π 0), g.σ 1 * cv w (g.π 1), g.σ 2 * cv w (g.π 2)⟩

theorem cv_turn (g : Sym (Fin 3)) (w : V3) (d : Fin 3) : cv (turn g w) d = (g.σ d : ℂ) * cv w (g.π d) := by fin_cases d <;> rfl

theorem kv_wave3 (δ : Fin 3 → ℝ) (k : Fin 3 → ℤ) (d : Fin 3) : kv (wave3 δ k) d = δ d * k d := by fin_cases d <;> rfl

theorem perm3 {π : Equiv.Perm (Fin 3)} (h2 : π 2 = 2) : (π 0 = 0 ∧ π 1 = 1) ∨ (π 0 = 1 ∧ π 1 = 0) := by
  have h : π 0 ≠ π 1 := fun h => absurd (π.injective h) (by decide)
  have h02 : π 0 ≠ 2 := fun h => absurd (π.injective (h.trans h2.symm)) (by decide)
  have h12 : π 1 ≠ 2 := fun h => absurd (π.injective (h.trans h2.symm)) (by decide)
  generalize π 0 = a at *
  generalize π 1 = b at *
  fin_cases a <;> fin_cases b <;> simp_all

theorem sign_cases {D : Type*} (g : Sym D) (d : D) : g.σ d = 1 ∨ g.σ d = -1 := mul_self_eq_one_iff.1 (g.unit d)

theorem k2_turn (g : Sym (Fin 3)) {k k' : K3} (h : ∀ d, kv k' (g.π d) = g.σ d * kv k d) : k2 k' = k2 k := by
  have e : ∀ k, k2 k = ∑ d, kv k d ^ 2 := fun k => by simp [k2, kh2, kv, Fin.sum_univ_three]
  rw [e, e, ← Equiv.sum_comp g.π]
  refine sum_congr rfl fun d _ => ?_
  rw [h]
  linear_combination kv k d ^ 2 * g.unitR d

theorem cv_perpk (k : K3) (v : V3) (d : Fin 3) :
    cv (perpk k v) d = cv v d - kv k d * ((∑ e, (kv k e : ℂ) * cv v e) * ((1 / nozero (k2 k) : ℝ) : ℂ)) := by
  fin_cases d <;> simp [cv, perpk, kradial, kv, Fin.sum_univ_three]

theorem perpk_turn (g : Sym (Fin 3)) {k k' : K3} (h : ∀ d, kv k' (g.π d) = g.σ d * kv k d) (w : V3) :
    perpk k (turn g w) = turn g (perpk k' w) := by
  have hd : ∑ e, (kv k e : ℂ) * cv (turn g w) e = ∑ e, (kv k' e : ℂ) * cv w e := by
    rw [← Equiv.sum_comp g.π fun e => (kv k' e : ℂ) * cv w e]
    refine sum_congr rfl fun d _ => ?_
    rw [cv_turn, h]
    push_cast
    ring
  refine cv_ext fun d => ?_
  rw [cv_perpk, hd, ← k2_turn g h, cv_turn, cv_turn, cv_perpk, h]
  push_cast
  generalize (∑ e, (kv k' e : ℂ) * cv w e) * (1 / (nozero (k2 k') : ℂ)) = X
  linear_combination kv k d * X * g.unitC d

theorem horiz_turn (g : Sym (Fin 3)) (h2 : g.π 2 = 2) {k k' : K3} (h : ∀ d, kv k' (g.π d) = g.σ d * kv k d) (w : V3) :
    toroidal k (turn g w) = turn g (toroidal k' w) ∧ poloidal k (turn g w) = turn g (poloidal k' w) := by
  have hk2 := k2_turn g h
  have a0 := h 0
  have a1 := h 1
  have a2 := h 2
  have hz : k'.z = g.σ 2 * k.z := by rw [h2] at a2; simpa [kv] using a2
  have hkh : kh2 k' = kh2 k := by
    have s2 := g.unitR 2
    have e : k'.z ^ 2 = k.z ^ 2 := by rw [hz]; linear_combination k.z ^ 2 * s2
    simp only [k2] at hk2
    linarith
  have hct : cosTheta k' = g.σ 2 * cosTheta k := by simp only [cosTheta, hk2, hz]; ring
  have hst : sinTheta k' = sinTheta k := by simp only [sinTheta, hk2, hkh]
  rcases perm3 h2 with ⟨h0, h1⟩ | ⟨h0, h1⟩
  · have hx : k'.x = g.σ 0 * k.x := by rw [h0] at a0; simpa [kv] using a0
    have hy : k'.y = g.σ 1 * k.y := by rw [h1] at a1; simpa [kv] using a1
    have hcp : cosPhi k' = g.σ 0 * cosPhi k := by simp only [cosPhi, hkh, hx]; ring
    have hsp : sinPhi k' = g.σ 1 * sinPhi k := by simp only [sinPhi, hkh, hy]; ring
    simp only [toroidal, poloidal, hcp, hsp, hct, hst]
    generalize cosPhi k = cp
    generalize sinPhi k = sp
    generalize cosTheta k = ct
    generalize sinTheta k = st
    constructor <;> refine cv_ext fun d => ?_ <;> fin_cases d <;>
      (simp only [cv, turn, h0, h1, h2, Fin.zero_eta, Fin.mk_one, Fin.reduceFinMk, Matrix.cons_val]
       rcases sign_cases g 0 with e0 | e0 <;> rcases sign_cases g 1 with e1 | e1 <;> rcases sign_cases g 2 with e2 | e2 <;>
         simp only [e0, e1, e2] <;> push_cast <;> ring)
  · have hx : k'.y = g.σ 0 * k.x := by rw [h0] at a0; simpa [kv] using a0
    have hy : k'.x = g.σ 1 * k.y := by rw [h1] at a1; simpa [kv] using a1
    have hcp : cosPhi k' = g.σ 1 * sinPhi k := by simp only [cosPhi, sinPhi, hkh, hy]; ring
    have hsp : sinPhi k' = g.σ 0 * cosPhi k := by simp only [cosPhi, sinPhi, hkh, hx]; ring
    simp only [toroidal, poloidal, hcp, hsp, hct, hst]
    generalize cosPhi k = cp
    generalize sinPhi k = sp
    generalize cosTheta k = ct
    generalize sinTheta k = st
    constructor <;> refine cv_ext fun d => ?_ <;> fin_cases d <;>
      (simp only [cv, turn, h0, h1, h2, Fin.zero_eta, Fin.mk_one, Fin.reduceFinMk, Matrix.cons_val]
       rcases sign_cases g 0 with e0 | e0 <;> rcases sign_cases g 1 with e1 | e1 <;> rcases sign_cases g 2 with e2 | e2 <;>
         simp only [e0, e1, e2] <;> push_cast <;> ring)

theorem projV_turn (g : Sym (Fin 3)) {p : Projection} {noVz : Bool} (hp : (p = .none ∧ noVz = false) ∨ g.π 2 = 2) {k k' : K3}
    (h : ∀ d, kv k' (g.π d) = g.σ d * kv k d) (w : V3) : projV p noVz k (turn g w) = turn g (projV p noVz k' w) := by
  rcases hp with ⟨rfl, rfl⟩ | h2
  · simpa [projV, projector] using perpk_turn g h w
  · have ep : projector p k (turn g w) = turn g (projector p k' w) := by
      cases p
      · exact perpk_turn g h w
      · exact (horiz_turn g h2 h w).1
      · exact (horiz_turn g h2 h w).2
    have hz : k'.z = 0 ↔ k.z = 0 := by
      have a2 := h 2
      rw [h2] at a2
      have hz : k'.z = g.σ 2 * k.z := by simpa [kv] using a2
      rcases sign_cases g 2 with e | e <;> rw [hz, e] <;> simp
    simp only [projV, ep, hz]
    split
    · rcases perm3 h2 with ⟨h0, h1⟩ | ⟨h0, h1⟩ <;> simp [turn, cv, h0, h1, h2]
    · rfl

theorem wave_turn (g : Sym (Fin 3)) {δ : Fin 3 → ℝ} (hδ : ∀ d, δ (g.π d) = δ d) (k : Fin 3 → ℤ) (d : Fin 3) :
    kv (wave3 δ (g.back k)) (g.π d) = g.σ d * kv (wave3 δ k) d := by
  rw [kv_wave3, kv_wave3, back_apply, hδ]
  push_cast
  ring

/-- The Coriolis force. -/
def cor (f : ℝ) (w : V3) : V3 := ⟨f * w.y, -(f * w.x), 0⟩

theorem cor_turn (g : Sym (Fin 3)) {f : ℝ} (hf : f = 0 ∨ (g.π 2 = 2 ∧ detH g = 1)) (w : V3) : cor f (turn g w) = turn g (cor f w) := by
  rcases hf with rfl | ⟨h2, hd⟩
  · have h0 : ∀ w, cor 0 w = ⟨0, 0, 0⟩ := fun w => by simp [cor]
    rw [h0, h0]
    refine cv_ext fun d => ?_
    rw [cv_turn]
    have : ∀ d, cv ⟨0, 0, 0⟩ d = 0 := fun d => by fin_cases d <;> rfl
    rw [this, this, mul_zero]
  · simp only [detH] at hd
    rcases perm3 h2 with ⟨h0, h1⟩ | ⟨h0, h1⟩ <;> rcases sign_cases g 0 with e0 | e0 <;> rcases sign_cases g 1 with e1 | e1 <;>
      rw [e0, e1, h0] at hd <;> first | (exfalso; revert hd; decide) | simp [cor, turn, cv, h0, h1, h2, e0, e1]

theorem cv_navier (S : Finset (Fin 3 → ℤ)) (δ : Fin 3 → ℝ) (f : ℝ) (v : (Fin 3 → ℤ) → V3) (k : Fin 3 → ℤ) (d : Fin 3) :
    cv (navierStokes S δ f v k) d = -advect S δ (comp v) (comp v d) k + cv (cor f (v k)) d := by
  fin_cases d <;> simp [cv, navierStokes, cor, sub_eq_add_neg]

theorem navier_turn (g : Sym (Fin 3)) {S : Finset (Fin 3 → ℤ)} {δ : Fin 3 → ℝ} (hg : g.Fits S δ) {f : ℝ}
    (hf : f = 0 ∨ (g.π 2 = 2 ∧ detH g = 1)) {v v' : (Fin 3 → ℤ) → V3} (hv : ∀ k ∈ S, v' k = turn g (v (g.back k))) {k : Fin 3 → ℤ} (hk : k ∈ S) :
    navierStokes S δ f v' k = turn g (navierStokes S δ f v (g.back k)) := by
  have hc : ∀ d, ∀ q ∈ S, comp v' d q = (g.σ d : ℂ) * comp v (g.π d) (g.back q) := by
    intro d q hq
    rw [comp_cv, hv q hq, cv_turn, comp_cv]
  refine cv_ext fun d => ?_
  rw [cv_turn, cv_navier, cv_navier, hv k hk, cor_turn g hf, cv_turn, advect_congr hc (hc d) k, advect_image g hg]
  ring

theorem turn_add (g : Sym (Fin 3)) (v w : V3) : turn g (add v w) = add (turn g v) (turn g w) := by
  have e : ∀ v w d, cv (add v w) d = cv v d + cv w d := fun v w d => by fin_cases d <;> rfl
  refine cv_ext fun d => ?_
  rw [cv_turn, e, e, cv_turn, cv_turn]
  ring

theorem turn_vert (g : Sym (Fin 3)) (h2 : g.π 2 = 2) (b : ℂ) : turn g ⟨0, 0, b⟩ = ⟨0, 0, g.σ 2 * b⟩ := by
  rcases perm3 h2 with ⟨h0, h1⟩ | ⟨h0, h1⟩ <;> simp [turn, cv, h0, h1, h2]

theorem components_cv (v : (Fin 3 → ℤ) → V3) (d : Fin 3) (k : Fin 3 → ℤ) : components v d k = cv (v k) d := by fin_cases d <;> rfl

theorem vec_image (g : Sym (Fin 3)) (S : Finset (Fin 3 → ℤ)) (u : Fin 3 → Fld (Fin 3)) {q : Fin 3 → ℤ} (hq : q ∈ S) :
    vec ((symMap g S g.π g.σ).app u) q = turn g (vec u (g.back q)) := by
  have e : ∀ (u : Fin 3 → Fld (Fin 3)) q d, cv (vec u q) d = u d q := fun u q d => by fin_cases d <;> rfl
  refine cv_ext fun d => ?_
  rw [cv_turn, e, e, symMap_app, if_pos hq]
  rfl

theorem tend3d_image {n : Fin 3 → ℕ} (hn : ∀ d, 0 < n d) {S : Finset (Fin 3 → ℤ)} (hS : NoAlias n S) (g : Sym (Fin 3)) {δ : Fin 3 → ℝ}
    (hg : g.Fits S δ) {f : Option ℝ} (hf : f.getD 0 = 0 ∨ (g.π 2 = 2 ∧ detH g = 1)) {p : Projection} {noVz : Bool}
    (hp : (p = .none ∧ noVz = false) ∨ g.π 2 = 2) (u : Fin 3 → Fld (Fin 3)) (v : Fin 3) (k : Fin 3 → ℤ) (hk : k ∈ S) :
    tend3d n S δ f p noVz ((symMap g S g.π g.σ).app u) v k = imageVel g (tend3d n S δ f p noVz u) v k := by
  simp only [imageVel, Sym.image, tend3d, components_cv]
  rw [ns3d_exact hn hS _ _ _ _ _ hk, ns3d_exact hn hS _ _ _ _ _ ((hg.modes k).2 hk),
    navier_turn g hg hf (fun q hq => vec_image g S u hq) hk, projV_turn g hp (wave_turn g hg.box k), cv_turn]

theorem projV_zero (p : Projection) (noVz : Bool) (k : K3) : projV p noVz k ⟨0, 0, 0⟩ = ⟨0, 0, 0⟩ := by
  have := projV_mul p noVz k 0 ⟨0, 0, 0⟩
  simpa using this

theorem project_image (g : Sym (Fin 3)) {S : Finset (Fin 3 → ℤ)} {δ : Fin 3 → ℝ} (hg : g.Fits S δ) {p : Projection} {noVz : Bool}
    (hp : (p = .none ∧ noVz = false) ∨ g.π 2 = 2) (u : Fin 3 → Fld (Fin 3)) :
    (components fun k => (projectState p noVz (wave3 δ k) ⟨vec ((symMap g S g.π g.σ).app u) k, none⟩).v)
      = (symMap g S g.π g.σ).app (components fun k => (projectState p noVz (wave3 δ k) ⟨vec u k, none⟩).v) := by
  funext d k
  rw [symMap_app, components_cv, projectState_v]
  split
  · rename_i hk
    simp only [vec_image g S u hk, projV_turn g hp (wave_turn g hg.box k), cv_turn, Sym.image, components_cv, projectState_v]
  · rename_i hk
    have : vec ((symMap g S g.π g.σ).app u) k = ⟨0, 0, 0⟩ := by simp [vec, symMap_app, hk]
    simp only [this, projV_zero]
    fin_cases d <;> rfl

/-! ### With the stratification -/

/-- The map of the variables. -/
def swap4 (g : Sym (Fin 3)) : Fin 4 → Fin 4 := ![(g.π 0).castSucc, (g.π 1).castSucc, (g.π 2).castSucc, 3]
def sign4 (g : Sym (Fin 3)) : Fin 4 → ℤ := ![g.σ 0, g.σ 1, g.σ 2, g.σ 2]

theorem mode_cv (u : Fin 4 → Fld (Fin 3)) (d : Fin 3) (k : Fin 3 → ℤ) : u d.castSucc k = cv (modeState u k).v d := by fin_cases d <;> rfl

theorem mode_image (g : Sym (Fin 3)) (S : Finset (Fin 3 → ℤ)) (u : Fin 4 → Fld (Fin 3)) {q : Fin 3 → ℤ} (hq : q ∈ S) :
    (modeState ((symMap g S (swap4 g) (sign4 g)).app u) q).v = turn g (modeState u (g.back q)).v ∧
      (symMap g S (swap4 g) (sign4 g)).app u 3 q = g.σ 2 * u 3 (g.back q) := by
  constructor
  · refine cv_ext fun d => ?_
    rw [cv_turn, ← mode_cv, symMap_app, if_pos hq, ← mode_cv]
    fin_cases d <;> rfl
  · rw [symMap_app, if_pos hq]; rfl

theorem components4_cv (s : (Fin 3 → ℤ) → ModeState) (d : Fin 3) (k : Fin 3 → ℤ) : components4 s d.castSucc k = cv (s k).v d := by
  fin_cases d <;> rfl

theorem tend3dStrat_image {n : Fin 3 → ℕ} (hn : ∀ d, 0 < n d) {S : Finset (Fin 3 → ℤ)} (hS : NoAlias n S) (g : Sym (Fin 3)) {δ : Fin 3 → ℝ}
    (hg : g.Fits S δ) (h2 : g.π 2 = 2) {f : Option ℝ} (hf : f.getD 0 = 0 ∨ detH g = 1) (N : ℝ) (p : Projection) (noVz : Bool)
    (u : Fin 4 → Fld (Fin 3)) (v : Fin 4) (k : Fin 3 → ℤ) (hk : k ∈ S) :
    tend3dStrat n S δ f N p noVz ((symMap g S (swap4 g) (sign4 g)).app u) v k = imageVelB g (tend3dStrat n S δ f N p noVz u) v k := by
  have hk' := (hg.modes k).2 hk
  set u' := (symMap g S (swap4 g) (sign4 g)).app u with hu'
  have hv : ∀ q ∈ S, (modeState u' q).v = turn g (modeState u (g.back q)).v := fun q hq => (mode_image g S u hq).1
  have hb : ∀ q ∈ S, u' 3 q = g.σ 2 * u 3 (g.back q) := fun q hq => (mode_image g S u hq).2
  have hc : ∀ d, ∀ q ∈ S, comp (fun k => (modeState u' k).v) d q = (g.σ d : ℂ) * comp (fun k => (modeState u k).v) (g.π d) (g.back q) := by
    intro d q hq
    rw [comp_cv, hv q hq, cv_turn, comp_cv]
  obtain ⟨e1, e2⟩ := ns3dStrat_exact hn hS δ f N p noVz (fun k => (modeState u' k).v) (u' 3) hk
  obtain ⟨d1, d2⟩ := ns3dStrat_exact hn hS δ f N p noVz (fun k => (modeState u k).v) (u 3) hk'
  have hV : (ns3dStrat n S δ f N p noVz (fun k => (modeState u' k).v) (u' 3) k).v
      = turn g (ns3dStrat n S δ f N p noVz (fun k => (modeState u k).v) (u 3) (g.back k)).v := by
    rw [e1, d1, navier_turn g hg (hf.imp id fun h => ⟨h2, h⟩) (v := fun k => (modeState u k).v) hv hk, hb k hk, ← turn_vert g h2, ← turn_add,
      projV_turn g (.inr h2) (wave_turn g hg.box k)]
  have hB : (ns3dStrat n S δ f N p noVz (fun k => (modeState u' k).v) (u' 3) k).b.getD 0
      = g.σ 2 * (ns3dStrat n S δ f N p noVz (fun k => (modeState u k).v) (u 3) (g.back k)).b.getD 0 := by
    have hz : (wave3 δ (g.back k)).z = 0 ↔ (wave3 δ k).z = 0 := by
      have a2 := wave_turn g hg.box k 2
      rw [h2] at a2
      have hz : (wave3 δ (g.back k)).z = g.σ 2 * (wave3 δ k).z := by simpa [kv] using a2
      rcases sign_cases g 2 with e | e <;> rw [hz, e] <;> simp
    have hs : ∑ d, Complex.I * ((δ d * k d : ℝ) : ℂ) * exactProduct S (comp (fun k => (modeState u' k).v) d) (u' 3) k
        = g.σ 2 * ∑ d, Complex.I * ((δ d * (g.back k d : ℝ) : ℝ) : ℂ) * exactProduct S (comp (fun k => (modeState u k).v) d) (u 3) (g.back k) := by
      rw [mul_sum, ← Equiv.sum_comp g.π fun d => (g.σ 2 : ℂ) * (Complex.I * ((δ d * (g.back k d : ℝ) : ℝ) : ℂ) * exactProduct S (comp (fun k => (modeState u k).v) d) (u 3) (g.back k))]
      refine sum_congr rfl fun d _ => ?_
      rw [exact_congr (hc d) hb, exact_image g hg.modes, back_apply, hg.box]
      push_cast
      ring
    have hw : (modeState u' k).v.z = g.σ 2 * (modeState u (g.back k)).v.z := by
      rw [hv k hk]
      simp [turn, cv, h2]
    rw [e2, d2]
    simp only [Option.getD_some, hz]
    split
    · simp
    · rw [hs, hw]
      ring
  have h4 : v = 3 ∨ ∃ d : Fin 3, v = d.castSucc := by fin_cases v; exacts [.inr ⟨0, rfl⟩, .inr ⟨1, rfl⟩, .inr ⟨2, rfl⟩, .inl rfl]
  rcases h4 with rfl | ⟨d, rfl⟩
  · exact hB
  · simp only [tend3dStrat]
    rw [components4_cv, hV, cv_turn, ← components4_cv]
    fin_cases d <;> rfl

theorem project4_image (g : Sym (Fin 3)) {S : Finset (Fin 3 → ℤ)} {δ : Fin 3 → ℝ} (hg : g.Fits S δ) (h2 : g.π 2 = 2) (p : Projection)
    (noVz : Bool) (u : Fin 4 → Fld (Fin 3)) :
    (components4 fun k => projectState p noVz (wave3 δ k) (modeState ((symMap g S (swap4 g) (sign4 g)).app u) k))
      = (symMap g S (swap4 g) (sign4 g)).app (components4 fun k => projectState p noVz (wave3 δ k) (modeState u k)) := by
  have hb : ∀ (u : Fin 4 → Fld (Fin 3)) k, (projectState p noVz (wave3 δ k) (modeState u k)).b.getD 0
      = if noVz = true ∧ (wave3 δ k).z = 0 then 0 else u 3 k := by
    intro u k
    simp only [projectState, modeState, abs_eq_zero]
    split <;> simp
  have ev : ∀ (u : Fin 4 → Fld (Fin 3)) k, (projectState p noVz (wave3 δ k) (modeState u k)).v
      = projV p noVz (wave3 δ k) (modeState u k).v := fun u k => projectState_v _ _ _ _ _
  funext v k
  rw [symMap_app]
  have h4 : v = 3 ∨ ∃ d : Fin 3, v = d.castSucc := by fin_cases v; exacts [.inr ⟨0, rfl⟩, .inr ⟨1, rfl⟩, .inr ⟨2, rfl⟩, .inl rfl]
  have hz : (wave3 δ (g.back k)).z = 0 ↔ (wave3 δ k).z = 0 := by
    have a2 := wave_turn g hg.box k 2
    rw [h2] at a2
    have hz : (wave3 δ (g.back k)).z = g.σ 2 * (wave3 δ k).z := by simpa [kv] using a2
    rcases sign_cases g 2 with e | e <;> rw [hz, e] <;> simp
  split
  · rename_i hk
    obtain ⟨m1, m2⟩ := mode_image g S u hk
    rcases h4 with rfl | ⟨d, rfl⟩
    · change (projectState p noVz (wave3 δ k) (modeState _ k)).b.getD 0 = (g.σ 2 : ℂ) * (projectState p noVz (wave3 δ (g.back k)) (modeState u (g.back k))).b.getD 0
      rw [hb, hb, m2]
      simp only [hz]
      split <;> simp
    · rw [components4_cv, ev, m1, projV_turn g (.inr h2) (wave_turn g hg.box k), cv_turn, ← ev]
      have := components4_cv (fun k => projectState p noVz (wave3 δ k) (modeState u k)) (g.π d) (g.back k)
      simp only [Sym.image]
      rw [← this]
      fin_cases d <;> rfl
  · rename_i hk
    have hm : (modeState ((symMap g S (swap4 g) (sign4 g)).app u) k).v = ⟨0, 0, 0⟩ := by simp [modeState, symMap_app, hk]
    rcases h4 with rfl | ⟨d, rfl⟩
    · change (projectState p noVz (wave3 δ k) (modeState _ k)).b.getD 0 = 0
      rw [hb, symMap_app, if_neg hk, ite_self]
    · rw [components4_cv, ev, hm, projV_zero]
      fin_cases d <;> rfl

end

end Verif.Symmetry
