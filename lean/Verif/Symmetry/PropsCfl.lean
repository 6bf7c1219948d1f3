import Verif.Symmetry.Cfl

/-!
# C95, C98: runs whose time steps are chosen by the CFL condition

With `USE_CFL`, the time steps are not given: they are functions of the states. The runs in other units, with another point of the grid as
origin, or in the mirror, choose corresponding time steps, so that they correspond.
-/

set_option linter.unusedSectionVars false

namespace Verif.Symmetry

open Verif.Fourier Verif.Vectors Verif.Energy Verif.Galerkin Verif.Schemes Verif.EndToEnd Finset

noncomputable section

variable {D V : Type*} [Fintype D] [DecidableEq D]

/-- The same scheme and phase shifts; the time steps are not compared. -/
def SameShifts (c c' : Numerics D V) : Prop :=
  c'.sc = c.sc ∧ c'.cfl = c.cfl ∧ ∀ m k, c'.ps m k = c.ps m k ∧ c'.pa m k = c.pa m k ∧ c'.pb m k = c.pb m k

/-- The same scheme, and phase shifts which are images of each other; the time steps are not compared. -/
def SymScheme (g : Sym D) (c c' : Numerics D V) : Prop :=
  c'.sc = c.sc ∧ c'.cfl = c.cfl ∧
    ∀ m k, c'.ps m k = c.ps m (g.back k) ∧ c'.pa m k = c.pa m (g.back k) ∧ c'.pb m k = c.pb m (g.back k)

/-! ### Units and origin -/

theorem pick2_units {n : Fin 2 → ℕ} (hn : ∀ d, 0 < n d) (G : Finset (Fin 2 → ℤ)) {δ : Fin 2 → ℝ} (hδ : ∀ d, δ d ≠ 0) (i : Fin 2 → ℤ)
    {ℓ τ : ℝ} (hℓ : 0 < ℓ) (hτ : 0 < τ) (CFL dtMax : ℝ) (x : Unit → Fld (Fin 2)) (h d : ℝ) (hx : pickNs2d n G δ CFL dtMax x h = .ok d) :
    pickNs2d n G (fun d => δ d / ℓ) CFL (τ * dtMax) (transformed δ (gridPoint n δ i) (fun _ => 1 / τ) x) (τ * h) = .ok (τ * d) := by
  have hδ' : ∀ d, δ d / ℓ ≠ 0 := fun d => div_ne_zero (hδ d) hℓ.ne'
  rw [pick2_eq hn G hδ] at hx
  rw [pick2_eq hn G hδ', ← Except.ok.inj hx, ← fromTmp_scale hτ]
  congr 2
  rw [sum_div]
  refine sum_congr rfl fun d _ => ?_
  have e : vel2 (fun d => δ d / ℓ) (transformed δ (gridPoint n δ i) (fun _ => 1 / τ) x ()) d
      = transformed δ (gridPoint n δ i) (fun _ => ℓ / τ) (vel2 δ (x ())) d := by
    have h := ux2_transformed hℓ.ne' δ (gridPoint n δ i) ((1 / τ : ℝ) : ℂ) (x ())
    fin_cases d
    · refine h.1.trans (funext fun p => ?_)
      change _ = ((ℓ / τ : ℝ) : ℂ) * phase δ (gridPoint n δ i) p * ux2 δ (x ()) p
      push_cast
      ring
    · refine h.2.trans (funext fun p => ?_)
      change _ = ((ℓ / τ : ℝ) : ℂ) * phase δ (gridPoint n δ i) p * uy2 δ (x ()) p
      push_cast
      ring
  rw [e, peak_units G hn hδ hℓ (c := ℓ / τ) (by positivity) i _ _ d rfl, mesh_units]
  have := hℓ.ne'
  field_simp

theorem pick3_units {n : Fin 3 → ℕ} (hn : ∀ d, 0 < n d) (G : Finset (Fin 3 → ℤ)) {δ : Fin 3 → ℝ} (hδ : ∀ d, δ d ≠ 0) (i : Fin 3 → ℤ)
    {ℓ τ : ℝ} (hℓ : 0 < ℓ) (hτ : 0 < τ) (CFL dtMax : ℝ) (v : Fin 3 → V) {a : V → ℝ} (ha : ∀ d, a (v d) = ℓ / τ) (x : V → Fld (Fin 3)) (h d : ℝ)
    (hx : pickNs3d n G δ CFL dtMax v x h = .ok d) :
    pickNs3d n G (fun d => δ d / ℓ) CFL (τ * dtMax) v (transformed δ (gridPoint n δ i) a x) (τ * h) = .ok (τ * d) := by
  have hδ' : ∀ d, δ d / ℓ ≠ 0 := fun d => div_ne_zero (hδ d) hℓ.ne'
  rw [pick3_eq hn G hδ] at hx
  rw [pick3_eq hn G hδ', ← Except.ok.inj hx, ← fromTmp_scale hτ]
  congr 2
  rw [sum_div]
  refine sum_congr rfl fun d _ => ?_
  rw [peak_units G hn hδ hℓ (c := ℓ / τ) (by positivity) i _ _ (v d) (ha d), mesh_units]
  have := hℓ.ne'
  field_simp

/-- C95, the runs with the CFL condition exist: whatever the parameters, there are time steps which are those chosen from the states which
they give (the choice never fails). -/
theorem C95_cfl_exists {n : Fin 2 → ℕ} (hn : ∀ d, 0 < n d) (S G : Finset (Fin 2 → ℤ)) {δ : Fin 2 → ℝ} (hδ : ∀ d, δ d ≠ 0) (beta : ℝ)
    (nu : Dissip.Nu) (CFL dtMax deltat0 : ℝ) (c : Numerics (Fin 2) Unit) (F : ℕ → Unit → Fld (Fin 2)) (rot0 : Unit → Fld (Fin 2)) :
    ∃ dt, Follows (pickNs2d n G δ CFL dtMax) deltat0 dt (runNs2d n S G δ beta nu (c.withDt dt) F rot0) :=
  follows_exists (r := fun dt => runNs2d n S G δ beta nu (c.withDt dt) F rot0)
    (fun dt dt' k h => run_congr S G δ nu _ _ c F rot0 dt dt' k h) (fun x h => ⟨_, pick2_eq hn G hδ CFL dtMax x h⟩) deltat0

theorem C95_cfl_exists_ns3d {n : Fin 3 → ℕ} (hn : ∀ d, 0 < n d) (S G : Finset (Fin 3 → ℤ)) {δ : Fin 3 → ℝ} (hδ : ∀ d, δ d ≠ 0) (f : Option ℝ)
    (p : Projection) (noVz : Bool) (nu : Dissip.Nu) (CFL dtMax deltat0 : ℝ) (c : Numerics (Fin 3) (Fin 3)) (F : ℕ → Fin 3 → Fld (Fin 3))
    (u0 : Fin 3 → Fld (Fin 3)) :
    ∃ dt, Follows (pickNs3d n G δ CFL dtMax id) deltat0 dt (runNs3d n S G δ f p noVz nu (c.withDt dt) F u0) :=
  follows_exists (r := fun dt => runNs3d n S G δ f p noVz nu (c.withDt dt) F u0)
    (fun dt dt' k h => run_congr S G δ nu _ _ c F u0 dt dt' k h) (fun x h => ⟨_, pick3_eq hn G hδ CFL dtMax id x h⟩) deltat0

/-- C95 (ns2d with the CFL condition): take the point `i` of the grid as the origin, multiply the lengths by `ℓ` and the times by `τ`
(`deltat0` and `deltat_max` too). Then the time steps which are chosen are those of the first run multiplied by `τ`, and the vorticity is
the one of the first run with the new origin, divided by `τ`. -/
theorem C95_ns2d_cfl {n : Fin 2 → ℕ} (hn : ∀ d, 0 < n d) {S : Finset (Fin 2 → ℤ)} (hS : NoAlias n S) (G : Finset (Fin 2 → ℤ))
    {δ : Fin 2 → ℝ} (hδ : ∀ d, δ d ≠ 0) (i : Fin 2 → ℤ) {ℓ τ : ℝ} (hℓ : 0 < ℓ) (hτ : 0 < τ) (beta : ℝ) (nu : Dissip.Nu)
    {CFL dtMax deltat0 : ℝ} (hC : 0 < CFL) (hm : 0 < dtMax) (h0 : 0 < deltat0) {c c' : Numerics (Fin 2) Unit} (hc : SameShifts c c')
    (F : ℕ → Unit → Fld (Fin 2)) (rot0 : Unit → Fld (Fin 2))
    (hf : Follows (pickNs2d n G δ CFL dtMax) deltat0 c.dt (runNs2d n S G δ beta nu c F rot0))
    (hf' : Follows (pickNs2d n G (fun d => δ d / ℓ) CFL (τ * dtMax)) (τ * deltat0) c'.dt
      (runNs2d n S G (fun d => δ d / ℓ) (beta / (ℓ * τ)) (newNu ℓ τ nu) c'
        (fun m => transformed δ (gridPoint n δ i) (fun _ => 1 / τ / τ) (F m)) (transformed δ (gridPoint n δ i) (fun _ => 1 / τ) rot0)))
    (m : ℕ) :
    c'.dt m = τ * c.dt m ∧
      runNs2d n S G (fun d => δ d / ℓ) (beta / (ℓ * τ)) (newNu ℓ τ nu) c'
          (fun m => transformed δ (gridPoint n δ i) (fun _ => 1 / τ / τ) (F m)) (transformed δ (gridPoint n δ i) (fun _ => 1 / τ) rot0) m
        = transformed δ (gridPoint n δ i) (fun _ => 1 / τ) (runNs2d n S G δ beta nu c F rot0 m) :=
  follows_related (τ := τ) (r := fun dt => runNs2d n S G δ beta nu (c.withDt dt) F rot0)
    (r' := fun dt => runNs2d n S G (fun d => δ d / ℓ) (beta / (ℓ * τ)) (newNu ℓ τ nu) (c'.withDt dt)
        (fun m => transformed δ (gridPoint n δ i) (fun _ => 1 / τ / τ) (F m)) (transformed δ (gridPoint n δ i) (fun _ => 1 / τ) rot0))
    (T := transformed δ (gridPoint n δ i) (fun _ => 1 / τ)) (good := fun _ => True) (dt := c.dt) (dt' := c'.dt)
    (fun dt dt' k h => run_congr S G _ _ _ _ c' _ _ dt dt' k h)
    (fun k => C95_ns2d hn hS G δ _ hℓ hτ beta nu (c := c) (c' := c'.withDt fun j => τ * c.dt j) ⟨hc.1, hc.2.1, fun _ => rfl, hc.2.2⟩
      (fun k => (follows_pos hC hm h0 (pick2_eq hn G hδ CFL dtMax) hf k).ne') F rot0 k)
    (fun _ => trivial) (fun x h d _ => pick2_units hn G hδ i hℓ hτ CFL dtMax x h d) hf hf' m

/-- C95 (ns3d with the CFL condition). -/
theorem C95_ns3d_cfl {n : Fin 3 → ℕ} (hn : ∀ d, 0 < n d) {S : Finset (Fin 3 → ℤ)} (hS : NoAlias n S) (G : Finset (Fin 3 → ℤ))
    {δ : Fin 3 → ℝ} (hδ : ∀ d, δ d ≠ 0) (i : Fin 3 → ℤ) {ℓ τ : ℝ} (hℓ : 0 < ℓ) (hτ : 0 < τ) (f : Option ℝ) (p : Projection) (noVz : Bool)
    (nu : Dissip.Nu) {CFL dtMax deltat0 : ℝ} (hC : 0 < CFL) (hm : 0 < dtMax) (h0 : 0 < deltat0) {c c' : Numerics (Fin 3) (Fin 3)}
    (hc : SameShifts c c') (F : ℕ → Fin 3 → Fld (Fin 3)) (u0 : Fin 3 → Fld (Fin 3))
    (hf : Follows (pickNs3d n G δ CFL dtMax id) deltat0 c.dt (runNs3d n S G δ f p noVz nu c F u0))
    (hf' : Follows (pickNs3d n G (fun d => δ d / ℓ) CFL (τ * dtMax) id) (τ * deltat0) c'.dt
      (runNs3d n S G (fun d => δ d / ℓ) (f.map (· / τ)) p noVz (newNu ℓ τ nu) c'
        (fun m => transformed δ (gridPoint n δ i) (fun _ => ℓ / τ / τ) (F m)) (transformed δ (gridPoint n δ i) (fun _ => ℓ / τ) u0)))
    (m : ℕ) :
    c'.dt m = τ * c.dt m ∧
      runNs3d n S G (fun d => δ d / ℓ) (f.map (· / τ)) p noVz (newNu ℓ τ nu) c'
          (fun m => transformed δ (gridPoint n δ i) (fun _ => ℓ / τ / τ) (F m)) (transformed δ (gridPoint n δ i) (fun _ => ℓ / τ) u0) m
        = transformed δ (gridPoint n δ i) (fun _ => ℓ / τ) (runNs3d n S G δ f p noVz nu c F u0 m) :=
  follows_related (τ := τ) (r := fun dt => runNs3d n S G δ f p noVz nu (c.withDt dt) F u0)
    (r' := fun dt => runNs3d n S G (fun d => δ d / ℓ) (f.map (· / τ)) p noVz (newNu ℓ τ nu) (c'.withDt dt)
        (fun m => transformed δ (gridPoint n δ i) (fun _ => ℓ / τ / τ) (F m)) (transformed δ (gridPoint n δ i) (fun _ => ℓ / τ) u0))
    (T := transformed δ (gridPoint n δ i) (fun _ => ℓ / τ)) (good := fun _ => True) (dt := c.dt) (dt' := c'.dt)
    (fun dt dt' k h => run_congr S G _ _ _ _ c' _ _ dt dt' k h)
    (fun k => C95_ns3d hn hS G δ _ hℓ hτ f p noVz nu (c := c) (c' := c'.withDt fun j => τ * c.dt j) ⟨hc.1, hc.2.1, fun _ => rfl, hc.2.2⟩
      (fun k => (follows_pos hC hm h0 (pick3_eq hn G hδ CFL dtMax id) hf k).ne') F u0 k)
    (fun _ => trivial) (fun x h d _ => pick3_units hn G hδ i hℓ hτ CFL dtMax id (fun _ => rfl) x h d) hf hf' m

/-- The variables of the velocity in the states with a buoyancy. -/
def velVars : Fin 3 → Fin 4 := Fin.castSucc

/-- C95 (ns3d.strat with the CFL condition). -/
theorem C95_ns3d_strat_cfl {n : Fin 3 → ℕ} (hn : ∀ d, 0 < n d) {S : Finset (Fin 3 → ℤ)} (hS : NoAlias n S) (G : Finset (Fin 3 → ℤ))
    {δ : Fin 3 → ℝ} (hδ : ∀ d, δ d ≠ 0) (i : Fin 3 → ℤ) {ℓ τ : ℝ} (hℓ : 0 < ℓ) (hτ : 0 < τ) (f : Option ℝ) (N : ℝ) (p : Projection)
    (noVz : Bool) (nu : Dissip.Nu) {CFL dtMax deltat0 : ℝ} (hC : 0 < CFL) (hm : 0 < dtMax) (h0 : 0 < deltat0)
    {c c' : Numerics (Fin 3) (Fin 4)} (hc : SameShifts c c') (F : ℕ → Fin 4 → Fld (Fin 3)) (u0 : Fin 4 → Fld (Fin 3))
    (hf : Follows (pickNs3d n G δ CFL dtMax velVars) deltat0 c.dt (runStrat3d n S G δ f N p noVz nu c F u0))
    (hf' : Follows (pickNs3d n G (fun d => δ d / ℓ) CFL (τ * dtMax) velVars) (τ * deltat0) c'.dt
      (runStrat3d n S G (fun d => δ d / ℓ) (f.map (· / τ)) (N / τ) p noVz (newNu ℓ τ nu) c'
        (fun m => transformed δ (gridPoint n δ i) ![ℓ / τ ^ 2, ℓ / τ ^ 2, ℓ / τ ^ 2, ℓ / τ ^ 3] (F m))
        (transformed δ (gridPoint n δ i) ![ℓ / τ, ℓ / τ, ℓ / τ, ℓ / τ ^ 2] u0)))
    (m : ℕ) :
    c'.dt m = τ * c.dt m ∧
      runStrat3d n S G (fun d => δ d / ℓ) (f.map (· / τ)) (N / τ) p noVz (newNu ℓ τ nu) c'
          (fun m => transformed δ (gridPoint n δ i) ![ℓ / τ ^ 2, ℓ / τ ^ 2, ℓ / τ ^ 2, ℓ / τ ^ 3] (F m))
          (transformed δ (gridPoint n δ i) ![ℓ / τ, ℓ / τ, ℓ / τ, ℓ / τ ^ 2] u0) m
        = transformed δ (gridPoint n δ i) ![ℓ / τ, ℓ / τ, ℓ / τ, ℓ / τ ^ 2] (runStrat3d n S G δ f N p noVz nu c F u0 m) :=
  follows_related (τ := τ) (r := fun dt => runStrat3d n S G δ f N p noVz nu (c.withDt dt) F u0)
    (r' := fun dt => runStrat3d n S G (fun d => δ d / ℓ) (f.map (· / τ)) (N / τ) p noVz (newNu ℓ τ nu) (c'.withDt dt)
        (fun m => transformed δ (gridPoint n δ i) ![ℓ / τ ^ 2, ℓ / τ ^ 2, ℓ / τ ^ 2, ℓ / τ ^ 3] (F m))
        (transformed δ (gridPoint n δ i) ![ℓ / τ, ℓ / τ, ℓ / τ, ℓ / τ ^ 2] u0))
    (T := transformed δ (gridPoint n δ i) ![ℓ / τ, ℓ / τ, ℓ / τ, ℓ / τ ^ 2]) (good := fun _ => True) (dt := c.dt) (dt' := c'.dt)
    (fun dt dt' k h => run_congr S G _ _ _ _ c' _ _ dt dt' k h)
    (fun k => C95_ns3d_strat hn hS G δ _ hℓ hτ f N p noVz nu (c := c) (c' := c'.withDt fun j => τ * c.dt j)
      ⟨hc.1, hc.2.1, fun _ => rfl, hc.2.2⟩ (fun k => (follows_pos hC hm h0 (pick3_eq hn G hδ CFL dtMax velVars) hf k).ne') F u0 k)
    (fun _ => trivial)
    (fun x h d _ => pick3_units hn G hδ i hℓ hτ CFL dtMax velVars (fun d => by fin_cases d <;> rfl) x h d) hf hf' m

/-! ### Symmetries of the box -/

theorem mesh_sym (g : Sym D) {n : D → ℕ} (hgn : ∀ d, n (g.π d) = n d) {δ : D → ℝ} (hδ : ∀ d, δ (g.π d) = δ d) (d : D) :
    mesh n δ (g.π d) = mesh n δ d := by simp only [mesh, hgn, hδ]

theorem pick2_image {n : Fin 2 → ℕ} (hn : ∀ d, 0 < n d) (g : Sym (Fin 2)) {S G : Finset (Fin 2 → ℤ)} (hSG : S ⊆ G)
    (hgn : ∀ d, n (g.π d) = n d) {δ : Fin 2 → ℝ} (hδ : ∀ d, δ d ≠ 0) (hg : g.Fits S δ) (CFL dtMax : ℝ) (x : Unit → Fld (Fin 2)) (hx : Within S x)
    (h : ℝ) : pickNs2d n G δ CFL dtMax (imageRot g x) h = pickNs2d n G δ CFL dtMax x h := by
  rw [pick2_eq hn G hδ, pick2_eq hn G hδ]
  congr 2
  rw [← Equiv.sum_comp g.π fun d => peak G n δ (vel2 δ (x ()) d) / mesh n δ d]
  refine sum_congr rfl fun d _ => ?_
  rw [mesh_sym g hgn hg.box]
  congr 1
  refine peak_image g hSG hn hgn hδ hg (g.unit d) (fun k hk => ?_) (vel2_image g hg.box (x ()) d)
  have := hx () k hk
  generalize g.π d = e
  fin_cases e <;> simp [vel2, ux2, uy2, this, Forcing.vecFromRot]

theorem pick3_image {n : Fin 3 → ℕ} (hn : ∀ d, 0 < n d) (g : Sym (Fin 3)) {S G : Finset (Fin 3 → ℤ)} (hSG : S ⊆ G)
    (hgn : ∀ d, n (g.π d) = n d) {δ : Fin 3 → ℝ} (hδ : ∀ d, δ d ≠ 0) (hg : g.Fits S δ) (CFL dtMax : ℝ) (v : Fin 3 → V) {w : V → V} {a : V → ℤ}
    (hw : ∀ d, w (v d) = v (g.π d)) (ha : ∀ d, a (v d) = g.σ d) (x : V → Fld (Fin 3)) (hx : Within S x) (h : ℝ) :
    pickNs3d n G δ CFL dtMax v (g.image w a x) h = pickNs3d n G δ CFL dtMax v x h := by
  rw [pick3_eq hn G hδ, pick3_eq hn G hδ]
  congr 2
  rw [← Equiv.sum_comp g.π fun d => peak G n δ (x (v d)) / mesh n δ d]
  refine sum_congr rfl fun d _ => ?_
  rw [mesh_sym g hgn hg.box]
  congr 1
  refine peak_image g hSG hn hgn hδ hg (g.unit d) (fun k hk => hx (v (g.π d)) k hk) ?_
  funext k
  simp only [Sym.image, hw, ha]

/-- The runs which choose their time steps correspond, for a symmetry. -/
theorem follows_same {X : Type*} {r r' : (ℕ → ℝ) → ℕ → X} {T : X → X} {good : X → Prop} {pick : X → ℝ → Except String ℝ}
    (hr' : ∀ dt dt' k, (∀ j < k, dt j = dt' j) → r' dt k = r' dt' k)
    {dt dt' : ℕ → ℝ} {d0 : ℝ} (hT : ∀ k, r' dt k = T (r dt k)) (hg : ∀ k, good (r dt k))
    (hp : ∀ x h, good x → pick (T x) h = pick x h)
    (h : Follows pick d0 dt (r dt)) (h' : Follows pick d0 dt' (r' dt')) (m : ℕ) : dt' m = dt m ∧ r' dt' m = T (r dt m) := by
  have := follows_related (τ := 1) (T := T) (good := good) (pick := pick) (pick' := pick) hr' (dt := dt) (dt' := dt') (d0 := d0)
    (by simpa only [one_mul] using hT) hg (fun x h d hx e => by rw [one_mul, one_mul, hp x h hx]; exact e) h (by rwa [one_mul]) m
  rwa [one_mul] at this

/-- C98 (ns2d with the CFL condition): the run from the image of the initial vorticity chooses the same time steps, and is the image of
the run. The grid has the symmetry as well: exchanged axes have the same number of points. -/
theorem C98_ns2d_cfl {n : Fin 2 → ℕ} (hn : ∀ d, 0 < n d) {S G : Finset (Fin 2 → ℤ)} (hS : NoAlias n S) (hSG : S ⊆ G) (g : Sym (Fin 2))
    (hgn : ∀ d, n (g.π d) = n d) {δ : Fin 2 → ℝ} (hδ : ∀ d, δ d ≠ 0) (hg : g.Fits S δ) {beta : ℝ}
    (hb : beta = 0 ∨ (g.π 1 = 1 ∧ g.σ 0 = 1)) (nu : Dissip.Nu) {CFL dtMax deltat0 : ℝ} (hC : 0 < CFL) (hm : 0 < dtMax) (h0 : 0 < deltat0)
    {c c' : Numerics (Fin 2) Unit} (hc : SymScheme g c c') {F : ℕ → Unit → Fld (Fin 2)} (hF : ∀ m, Within S (F m))
    {rot0 : Unit → Fld (Fin 2)} (hr : Within S rot0)
    (hf : Follows (pickNs2d n G δ CFL dtMax) deltat0 c.dt (runNs2d n S G δ beta nu c F rot0))
    (hf' : Follows (pickNs2d n G δ CFL dtMax) deltat0 c'.dt
      (runNs2d n S G δ beta nu c' (fun m => imageRot g (F m)) (imageRot g rot0))) (m : ℕ) :
    c'.dt m = c.dt m ∧
      runNs2d n S G δ beta nu c' (fun m => imageRot g (F m)) (imageRot g rot0) m = imageRot g (runNs2d n S G δ beta nu c F rot0 m) :=
  follows_same (r := fun dt => runNs2d n S G δ beta nu (c.withDt dt) F rot0)
    (r' := fun dt => runNs2d n S G δ beta nu (c'.withDt dt) (fun m => imageRot g (F m)) (imageRot g rot0)) (T := imageRot g)
    (good := Within S) (dt := c.dt) (dt' := c'.dt) (fun dt dt' k h => run_congr S G _ _ _ _ c' _ _ dt dt' k h)
    (fun k => C98_ns2d hn hS hSG g hg hb nu (c := c) (c' := c'.withDt c.dt) ⟨hc.1, hc.2.1, rfl, hc.2.2⟩
      (fun k => (follows_pos hC hm h0 (pick2_eq hn G hδ CFL dtMax) hf k).ne') hF hr k)
    (fun k => run_within hr k) (fun x h hx => pick2_image hn g hSG hgn hδ hg CFL dtMax x hx h) hf hf' m

/-- C98 (ns3d with the CFL condition). -/
theorem C98_ns3d_cfl {n : Fin 3 → ℕ} (hn : ∀ d, 0 < n d) {S G : Finset (Fin 3 → ℤ)} (hS : NoAlias n S) (hSG : S ⊆ G) (g : Sym (Fin 3))
    (hgn : ∀ d, n (g.π d) = n d) {δ : Fin 3 → ℝ} (hδ : ∀ d, δ d ≠ 0) (hg : g.Fits S δ) {f : Option ℝ}
    (hfc : f.getD 0 = 0 ∨ (g.π 2 = 2 ∧ detH g = 1)) {p : Projection} {noVz : Bool} (hp : (p = .none ∧ noVz = false) ∨ g.π 2 = 2)
    (nu : Dissip.Nu) {CFL dtMax deltat0 : ℝ} (hC : 0 < CFL) (hm : 0 < dtMax) (h0 : 0 < deltat0) {c c' : Numerics (Fin 3) (Fin 3)}
    (hc : SymScheme g c c') {F : ℕ → Fin 3 → Fld (Fin 3)} (hF : ∀ m, Within S (F m)) {u0 : Fin 3 → Fld (Fin 3)} (hr : Within S u0)
    (hf : Follows (pickNs3d n G δ CFL dtMax id) deltat0 c.dt (runNs3d n S G δ f p noVz nu c F u0))
    (hf' : Follows (pickNs3d n G δ CFL dtMax id) deltat0 c'.dt
      (runNs3d n S G δ f p noVz nu c' (fun m => imageVel g (F m)) (imageVel g u0))) (m : ℕ) :
    c'.dt m = c.dt m ∧
      runNs3d n S G δ f p noVz nu c' (fun m => imageVel g (F m)) (imageVel g u0) m = imageVel g (runNs3d n S G δ f p noVz nu c F u0 m) :=
  follows_same (r := fun dt => runNs3d n S G δ f p noVz nu (c.withDt dt) F u0)
    (r' := fun dt => runNs3d n S G δ f p noVz nu (c'.withDt dt) (fun m => imageVel g (F m)) (imageVel g u0)) (T := imageVel g)
    (good := Within S) (dt := c.dt) (dt' := c'.dt) (fun dt dt' k h => run_congr S G _ _ _ _ c' _ _ dt dt' k h)
    (fun k => C98_ns3d hn hS hSG g hg hfc hp nu (c := c) (c' := c'.withDt c.dt) ⟨hc.1, hc.2.1, rfl, hc.2.2⟩
      (fun k => (follows_pos hC hm h0 (pick3_eq hn G hδ CFL dtMax id) hf k).ne') hF hr k)
    (fun k => run_within hr k)
    (fun x h hx => pick3_image hn g hSG hgn hδ hg CFL dtMax id (fun _ => rfl) (fun _ => rfl) x hx h) hf hf' m

/-- C98 (ns3d.strat with the CFL condition). -/
theorem C98_ns3d_strat_cfl {n : Fin 3 → ℕ} (hn : ∀ d, 0 < n d) {S G : Finset (Fin 3 → ℤ)} (hS : NoAlias n S) (hSG : S ⊆ G) (g : Sym (Fin 3))
    (hgn : ∀ d, n (g.π d) = n d) {δ : Fin 3 → ℝ} (hδ : ∀ d, δ d ≠ 0) (hg : g.Fits S δ) (h2 : g.π 2 = 2) {f : Option ℝ}
    (hfc : f.getD 0 = 0 ∨ detH g = 1) (N : ℝ) (p : Projection) (noVz : Bool) (nu : Dissip.Nu) {CFL dtMax deltat0 : ℝ} (hC : 0 < CFL)
    (hm : 0 < dtMax) (h0 : 0 < deltat0) {c c' : Numerics (Fin 3) (Fin 4)} (hc : SymScheme g c c') {F : ℕ → Fin 4 → Fld (Fin 3)}
    (hF : ∀ m, Within S (F m)) {u0 : Fin 4 → Fld (Fin 3)} (hr : Within S u0)
    (hf : Follows (pickNs3d n G δ CFL dtMax velVars) deltat0 c.dt (runStrat3d n S G δ f N p noVz nu c F u0))
    (hf' : Follows (pickNs3d n G δ CFL dtMax velVars) deltat0 c'.dt
      (runStrat3d n S G δ f N p noVz nu c' (fun m => imageVelB g (F m)) (imageVelB g u0))) (m : ℕ) :
    c'.dt m = c.dt m ∧ runStrat3d n S G δ f N p noVz nu c' (fun m => imageVelB g (F m)) (imageVelB g u0) m
      = imageVelB g (runStrat3d n S G δ f N p noVz nu c F u0 m) :=
  follows_same (r := fun dt => runStrat3d n S G δ f N p noVz nu (c.withDt dt) F u0)
    (r' := fun dt => runStrat3d n S G δ f N p noVz nu (c'.withDt dt) (fun m => imageVelB g (F m)) (imageVelB g u0)) (T := imageVelB g)
    (good := Within S) (dt := c.dt) (dt' := c'.dt) (fun dt dt' k h => run_congr S G _ _ _ _ c' _ _ dt dt' k h)
    (fun k => C98_ns3d_strat hn hS hSG g hg h2 hfc N p noVz nu (c := c) (c' := c'.withDt c.dt) ⟨hc.1, hc.2.1, rfl, hc.2.2⟩
      (fun k => (follows_pos hC hm h0 (pick3_eq hn G hδ CFL dtMax velVars) hf k).ne') hF hr k)
    (fun k => run_within hr k)
    (fun x h hx => pick3_image hn g hSG hgn hδ hg CFL dtMax velVars (fun d => by fin_cases d <;> rfl) (fun d => by fin_cases d <;> rfl) x hx h)
    hf hf' m

end

end Verif.Symmetry
