import Verif.StateVars.Lemmas

/-! # C77: the variables given by the states of the 2D solvers -/

set_option linter.unusedSectionVars false
set_option linter.unusedSimpArgs false

namespace Verif.StateVars

open Verif.Fourier Verif.Energy Verif.Forcing Verif.Sw1l Finset

noncomputable section

variable {p : Par} {n : Fin 2 → ℕ} {S : Finset Mode}

/-! ### The order of the calls -/

theorem ranked_sw1l : Ranked (sw1lState p n S) rank := by
  intro key r h d hd
  cases key <;> simp only [sw1lState, rulesPhys, direct, ofK, ofX, reduceCtorEq, Option.some.injEq] at h <;>
    subst h <;> simp only [List.mem_singleton, List.not_mem_nil] at hd <;> subst hd <;> decide

theorem ranked_exactlin : Ranked (exactlinState p n S) rank := by
  intro key r h d hd
  cases key <;> simp only [exactlinState, rulesPhys, direct, ofK, ofX, ofKK, reduceCtorEq, Option.some.injEq] at h <;>
    subst h <;> simp only [List.mem_singleton, List.not_mem_nil, List.mem_cons, or_false] at hd <;>
    (first | subst hd | rcases hd with rfl | rfl) <;> decide

theorem ranked_onlywaves : Ranked (onlywavesState p n S) rank := by
  intro key r h d hd
  cases key <;> simp only [onlywavesState, rulesPhys, direct, ofK, ofX, ofKK, reduceCtorEq, Option.some.injEq] at h <;>
    subst h <;> simp only [List.mem_singleton, List.not_mem_nil, List.mem_cons, or_false] at hd <;>
    (first | subst hd | rcases hd with rfl | rfl) <;> decide

theorem ranked_modified : Ranked (modifiedState p n S) rankV := by
  intro key r h d hd
  cases key <;> simp only [modifiedState, direct, ofK, ofX, ofKK, reduceCtorEq, Option.some.injEq] at h <;>
    subst h <;> simp only [List.mem_singleton, List.not_mem_nil, List.mem_cons, or_false] at hd <;>
    (first | subst hd | rcases hd with rfl | rfl) <;> decide

theorem ranked_ns2d : Ranked (ns2dState p n S) rankV := by
  intro key r h d hd
  cases key <;> simp only [ns2dState, rulesVel, direct, ofK, ofX, ofKK, reduceCtorEq, Option.some.injEq] at h <;>
    subst h <;> simp only [List.mem_singleton, List.not_mem_nil, List.mem_cons, or_false] at hd <;>
    (first | subst hd | rcases hd with rfl | rfl) <;> decide

theorem ranked_bouss : Ranked (boussState p n S) rankV := by
  intro key r h d hd
  cases key <;> simp only [boussState, rulesVel, direct, ofK, ofX, ofKK, reduceCtorEq, Option.some.injEq] at h <;>
    subst h <;> simp only [List.mem_singleton, List.not_mem_nil, List.mem_cons, or_false] at hd <;>
    (first | subst hd | rcases hd with rfl | rfl) <;> decide

theorem ranked_strat (N : ℝ) : Ranked (stratState p n S N) rankV := by
  intro key r h d hd
  cases key <;> simp only [stratState, rulesVel, direct, ofK, ofX, ofKK, reduceCtorEq, Option.some.injEq] at h <;>
    subst h <;> simp only [List.mem_singleton, List.not_mem_nil, List.mem_cons, or_false] at hd <;>
    (first | subst hd | rcases hd with rfl | rfl) <;> decide

/-- A state where no branch saves a second variable. -/
theorem coherent_of_none {St V : Type} {sys : Sys St V} {st : St}
    (h : ∀ key r, sys.rules key = some r → r.also = none) : Coherent sys st fun _ => False := by
  refine ⟨?_, fun _ _ _ _ _ => id⟩
  intro key r k2 g hr ha
  rw [h key r hr] at ha
  cases ha

theorem coherent_sw1l (u : Mode → UEta) : Coherent (sw1lState p n S) u (fun _ => False) :=
  coherent_of_none fun key r h => by
    cases key <;> simp only [sw1lState, rulesPhys, direct, ofK, ofX, reduceCtorEq, Option.some.injEq] at h <;>
      subst h <;> rfl

theorem coherent_modified (u : Mode → UEta) : Coherent (modifiedState p n S) u (fun _ => False) :=
  coherent_of_none fun key r h => by
    cases key <;> simp only [modifiedState, direct, ofK, ofX, ofKK, reduceCtorEq, Option.some.injEq] at h <;>
      subst h <;> rfl

theorem coherent_ns2d (s : RotB) : Coherent (ns2dState p n S) s (fun _ => False) :=
  coherent_of_none fun key r h => by
    cases key <;> simp only [ns2dState, rulesVel, direct, ofK, ofX, ofKK, reduceCtorEq, Option.some.injEq] at h <;>
      subst h <;> rfl

theorem coherent_bouss (s : RotB) : Coherent (boussState p n S) s (fun _ => False) :=
  coherent_of_none fun key r h => by
    cases key <;> simp only [boussState, rulesVel, direct, ofK, ofX, ofKK, reduceCtorEq, Option.some.injEq] at h <;>
      subst h <;> rfl

theorem coherent_strat (N : ℝ) (s : RotB) : Coherent (stratState p n S N) s (fun _ => False) :=
  coherent_of_none fun key r h => by
    cases key <;> simp only [stratState, rulesVel, direct, ofK, ofX, ofKK, reduceCtorEq, Option.some.injEq] at h <;>
      subst h <;> rfl

/-- The two components saved together by sw1l.exactlin are those computed separately. -/
theorem coherent_exactlin (s : Mode → QA) : Coherent (exactlinState p n S) s (fun _ => False) := by
  refine ⟨?_, fun _ _ _ _ _ => id⟩
  intro key r k2 g h ha _ l hl
  cases key <;> simp only [exactlinState, rulesPhys, direct, ofK, ofX, ofKK, reduceCtorEq, Option.some.injEq] at h <;>
    subst h <;> simp only [reduceCtorEq, Option.some.injEq, Prod.mk.injEq] at ha <;>
    (obtain ⟨rfl, rfl⟩ := ha; cases hl; rfl)

/-- C77: in sw1l, sw1l.exactlin, sw1l.modified, ns2d, ns2d.bouss and ns2d.strat, the variables read in one iteration
do not depend on the variables read before: every sequence of `get_var` gives the values computed without
dictionary. -/
theorem C77_history_partial (N : ℝ) (keys : List Var) (u : Mode → UEta) (s : Mode → QA) (r : RotB) :
    reads (sw1lState p n S) u keys Cache.empty = keys.map (value (sw1lState p n S) u) ∧
    reads (exactlinState p n S) s keys Cache.empty = keys.map (value (exactlinState p n S) s) ∧
    reads (modifiedState p n S) u keys Cache.empty = keys.map (value (modifiedState p n S) u) ∧
    reads (ns2dState p n S) r keys Cache.empty = keys.map (value (ns2dState p n S) r) ∧
    reads (boussState p n S) r keys Cache.empty = keys.map (value (boussState p n S) r) ∧
    reads (stratState p n S N) r keys Cache.empty = keys.map (value (stratState p n S N) r) :=
  ⟨reads_good ranked_sw1l rank_le (coherent_sw1l u) _ _ good_empty,
   reads_good ranked_exactlin rank_le (coherent_exactlin s) _ _ good_empty,
   reads_good ranked_modified rankV_le (coherent_modified u) _ _ good_empty,
   reads_good ranked_ns2d rankV_le (coherent_ns2d r) _ _ good_empty,
   reads_good ranked_bouss rankV_le (coherent_bouss r) _ _ good_empty,
   reads_good (ranked_strat N) rankV_le (coherent_strat N r) _ _ good_empty⟩

/-! ### sw1l -/

theorem rot_doc (k : Mode) (x y : ℂ) :
    Complex.I * p.kx k * y - Complex.I * p.ky k * x = rotOf p k x y := by simp only [rotOf]; ring

theorem div_doc (k : Mode) (x y : ℂ) :
    Complex.I * p.kx k * x + Complex.I * p.ky k * y = divOf p k x y := by simp only [divOf]; ring

theorem a_doc (k : Mode) (u : UEta) :
    ((p.kx k : ℂ) ^ 2 + (p.ky k : ℂ) ^ 2) * u.eta + p.f / p.c2 * rotOf p k u.ux u.uy = aOf p k u := by
  simp only [aOf, Par.k2]
  split_ifs with hf
  · push_cast; ring
  · have : p.f = 0 := by simpa using hf
    rw [this]; push_cast; ring

theorem grid_sub (a b : Fld (Fin 2)) (j : Pt n) :
    gridVal n S (fun k => a k - b k) j = gridVal n S a j - gridVal n S b j := by
  simp only [gridVal, sub_mul, sum_sub_distrib]

theorem grid_smul (c : ℂ) (b : Fld (Fin 2)) (j : Pt n) :
    gridVal n S (fun k => c * b k) j = c * gridVal n S b j := by
  simp only [gridVal, mul_assoc, mul_sum]

theorem grid_congr {a b : Fld (Fin 2)} (h : ∀ k ∈ S, a k = b k) : gridVal n S a = gridVal n S b := by
  funext j
  exact sum_congr rfl fun k hk => by rw [h k hk]

/-- C77: every variable of sw1l is the documented function of the flow, whatever was read before. -/
theorem C77_sw1l (u : Mode → UEta) (key : Var) (a : Arr n) (h : doc p n S u key = some a) :
    Gives (sw1lState p n S) u key (Same n S a) := by
  have hg : ∀ {key : Var} {v : Arr n}, value (sw1lState p n S) u key = some v → Same n S a v →
      Gives (sw1lState p n S) u key (Same n S a) := fun hv hR =>
    gives_of_value ranked_sw1l rank_le (coherent_sw1l u) id hv hR
  cases key <;> simp only [doc, reduceCtorEq, Option.some.injEq] at h <;> subst h
  all_goals refine hg rfl ?_
  all_goals simp only [Same, sw1lState, readSw1l, rot_doc, div_doc, a_doc, flux, qOf, grid_sub, grid_smul,
    implies_true]
  case Jx_fft => exact fun _ _ => rfl
  case Jy_fft => exact fun _ _ => rfl

/-! ### sw1l.exactlin -/

/-- The vorticity of normal modes without mean: `q + f eta`, and the array computed as "rot_fft". -/
theorem rot_modes (h : p.Ok) (s : Mode → QA) (h0 : s 0 = ⟨0, 0, 0⟩) (k : Mode) :
    rotOf p k (uEtaFrom p k (s k)).ux (uEtaFrom p k (s k)).uy
        = rotFromQ p k (s k).q + rotFromA p k ((s k).ap + (s k).am) ∧
      rotOf p k (uEtaFrom p k (s k)).ux (uEtaFrom p k (s k)).uy
        = (s k).q + p.f * (uEtaFrom p k (s k)).eta := by
  by_cases hk : k = 0
  · subst hk
    rw [h0]
    simp [rotOf, rotFromQ, rotFromA, etaFromA, invLap, Par.kx, Par.ky, uEtaFrom, fromA, fromQ]
  · rw [rot_uEtaFrom h hk]
    have e := uEtaFrom_ne h hk (s k)
    simp only [] at e
    have hκ : (p.k2 k : ℂ) + p.kd2 ≠ 0 := by
      have h1 := h.k2_pos hk
      have h2 := h.kd2_nonneg
      exact_mod_cast (by positivity : p.k2 k + p.kd2 ≠ 0)
    have hkd : (p.kd2 : ℂ) = p.f ^ 2 / p.c2 := by simp only [Par.kd2]; push_cast; ring
    constructor
    · simp only [rotFromQ, rotFromA, etaFromA, invLap, if_neg hk, h.kappa2not0 hk]
      split_ifs with hf
      · rw [hf]; push_cast; ring
      · push_cast; ring
    · rw [e, eq_comm, eq_div_iff hκ, add_mul, mul_assoc, div_mul_cancel₀ _ hκ, hkd]
      ring

theorem div_modes (h : p.Ok) (s : Mode → QA) (h0 : s 0 = ⟨0, 0, 0⟩) (k : Mode) :
    divOf p k (uEtaFrom p k (s k)).ux (uEtaFrom p k (s k)).uy = divFromApAm p k (s k).ap (s k).am := by
  by_cases hk : k = 0
  · subst hk
    rw [h0]
    simp [divOf, divFromApAm, Par.kx, Par.ky]
  · rw [div_uEtaFrom h hk, divFromApAm, if_neg hk]

theorem eta_modes (s : Mode → QA) (h0 : s 0 = ⟨0, 0, 0⟩) (k : Mode) :
    (uEtaFrom p k (s k)).eta = etaFromQ p k (s k).q + etaFromA p k ((s k).ap + (s k).am) := by
  by_cases hk : k = 0
  · subst hk
    rw [h0]
    simp [uEtaFrom, fromA, fromQ, etaFromA, etaFromQ, invLap]
  · simp only [uEtaFrom, if_neg hk, fromA, fromQ, etaFromA, etaFromQ]
    split_ifs
    · ring
    · push_cast; ring

theorem vel_modes (h : p.Ok) (s : Mode → QA) (h0 : s 0 = ⟨0, 0, 0⟩) (k : Mode) :
    (uEtaFrom p k (s k)).ux
        = velX p (fun k => rotOf p k (uEtaFrom p k (s k)).ux (uEtaFrom p k (s k)).uy)
            (fun k => divOf p k (uEtaFrom p k (s k)).ux (uEtaFrom p k (s k)).uy) 0 k ∧
      (uEtaFrom p k (s k)).uy
        = velY p (fun k => rotOf p k (uEtaFrom p k (s k)).ux (uEtaFrom p k (s k)).uy)
            (fun k => divOf p k (uEtaFrom p k (s k)).ux (uEtaFrom p k (s k)).uy) 0 k := by
  by_cases hk : k = 0
  · subst hk
    rw [velX, velY, if_pos rfl, if_pos rfl, h0]
    simp [uEtaFrom]
  · have := vel_of_rot_div h hk (uEtaFrom p k (s k)).ux (uEtaFrom p k (s k)).uy
    simp only [velX, velY, if_neg hk, vecFromRot, vecFromDiv, h.k2not0 hk]
    constructor
    · linear_combination -this.1
    · linear_combination -this.2

theorem aOf_modes (h : p.Ok) (s : Mode → QA) (h0 : s 0 = ⟨0, 0, 0⟩) (k : Mode) :
    aOf p k (uEtaFrom p k (s k)) = (s k).ap + (s k).am := by
  by_cases hk : k = 0
  · subst hk
    rw [h0]
    simp [aOf, rotOf, Par.k2, Par.kx, Par.ky]
  · have e := C39_roundtrip_qapam h hk (s k)
    rw [qapam_ne hk] at e
    have e1 := congrArg QA.ap e
    have e2 := congrArg QA.am e
    simp only [] at e1 e2
    rw [← a_doc]
    have : (p.k2 k : ℂ) = (p.kx k : ℂ) ^ 2 + (p.ky k : ℂ) ^ 2 := by simp [Par.k2]
    rw [this] at e1 e2
    push_cast at e1 e2
    linear_combination e1 + e2

/-- C77: every variable of sw1l.exactlin is the documented function of the flow of its normal modes, whatever was read
before, for a state without mean flow. Missing: the mean flow, see the findings `C39_exactlin_mean_violated` and
`C77_exactlin_mean_a_violated`. -/
theorem C77_exactlin_partial (h : p.Ok) (s : Mode → QA) (h0 : s 0 = ⟨0, 0, 0⟩) (key : Var) (a : Arr n)
    (ha : doc p n S (fun k => uEtaFrom p k (s k)) key = some a) :
    Gives (exactlinState p n S) s key (Same n S a) := by
  have hg : ∀ {key : Var} {v : Arr n}, value (exactlinState p n S) s key = some v → Same n S a v →
      Gives (exactlinState p n S) s key (Same n S a) := fun hv hR =>
    gives_of_value ranked_exactlin rank_le (coherent_exactlin s) id hv hR
  have hr1 := fun k => (rot_modes h s h0 k).1
  have hr2 := fun k => (rot_modes h s h0 k).2
  have hd := fun k => div_modes h s h0 k
  have hv1 := fun k => (vel_modes h s h0 k).1
  have hv2 := fun k => (vel_modes h s h0 k).2
  simp only [hr1, hd] at hv1 hv2
  have e0 : (s 0).ap = 0 ∧ (s 0).am = 0 := by rw [h0]; exact ⟨rfl, rfl⟩
  cases key <;> simp only [doc, reduceCtorEq, Option.some.injEq] at ha <;> subst ha
  all_goals refine hg rfl ?_
  all_goals simp only [Same, exactlinState, readExactlin, rot_doc, div_doc, a_doc, flux,
    grid_sub, grid_smul, implies_true]
  case rot => simp only [hr2, implies_true]
  case div => simp only [hd, implies_true]
  case q => simp only [hr2, implies_true]
  case rot_fft => exact fun k _ => hr1 k
  case div_fft => exact fun k _ => hd k
  case q_fft => intro k _; rw [hr2]; ring
  case a_fft => exact fun k _ => aOf_modes h s h0 k
  case eta_fft => exact fun k _ => eta_modes s h0 k
  case Jx_fft => exact fun _ _ => rfl
  case Jy_fft => exact fun _ _ => rfl
  case ux_fft => intro k _; rw [hv1 k, e0.1]
  case uy_fft => intro k _; rw [hv2 k, e0.2]

/-- C77, finding: in sw1l.exactlin the variable `a_fft` of a uniform flow `(ux, uy)` is `2 ux` for the mean mode (the
ageostrophic part of a uniform flow is zero, and this is what sw1l gives for the same flow). -/
theorem C77_exactlin_mean_a_violated (u : UEta) :
    ∃ a, value (exactlinState p n S) (fun k => if k = 0 then qapam p 0 u else ⟨0, 0, 0⟩) .a_fft = some (.K a) ∧
      a 0 = 2 * u.ux ∧ aOf p 0 ⟨u.ux, u.uy, 0⟩ = 0 := by
  refine ⟨_, rfl, ?_, ?_⟩
  · simp [qapam]; ring
  · simp [aOf, rotOf, Par.k2, Par.kx, Par.ky]

/-! ### sw1l.onlywaves -/

theorem qaOf_zero {s : Mode → ℂ × ℂ} (h0 : s 0 = 0) : qaOf s 0 = ⟨0, 0, 0⟩ := by
  simp [qaOf, h0]

/-- The values of the variables of sw1l.onlywaves, except "uy_fft", without dictionary. -/
theorem onlywaves_value (h : p.Ok) (s : Mode → ℂ × ℂ) (h0 : s 0 = 0) (key : Var) (hkey : key ≠ .uy_fft) (a : Arr n)
    (ha : doc p n S (fun k => uEtaFrom p k (qaOf s k)) key = some a) :
    ∃ v, value (onlywavesState p n S) s key = some v ∧ Same n S a v := by
  have z := qaOf_zero h0
  have hr1 := fun k => (rot_modes h (qaOf s) z k).1
  have hr2 := fun k => (rot_modes h (qaOf s) z k).2
  have hd := fun k => div_modes h (qaOf s) z k
  have hv1 := fun k => (vel_modes h (qaOf s) z k).1
  simp only [hr1, hd] at hv1
  have hq : ∀ k, rotFromQ p k (qaOf s k).q = 0 := by intro k; simp [rotFromQ, qaOf, invLap]
  have hq' : ∀ k, etaFromQ p k (qaOf s k).q = 0 := by intro k; simp [etaFromQ, qaOf, invLap]
  have hq0 : ∀ k, (qaOf s k).q = 0 := fun k => rfl
  simp only [hq, zero_add] at hr1 hv1
  have e0 : (s 0).1 = 0 := by rw [h0]; rfl
  cases key <;> simp only [doc, reduceCtorEq, Option.some.injEq] at ha <;> subst ha
  case uy_fft => exact absurd rfl hkey
  all_goals refine ⟨_, rfl, ?_⟩
  all_goals simp only [Same, onlywavesState, readOnlywaves, rot_doc, div_doc, a_doc, flux,
    grid_sub, grid_smul, implies_true]
  case rot => intro j; rw [grid_congr fun k _ => hr1 k]; rfl
  case div => simp only [hd, implies_true]; intro j; rfl
  case q => intro j; rw [grid_congr fun k _ => hr2 k]; simp [hq0, grid_smul]
  case rot_fft => exact fun k _ => hr1 k
  case div_fft => exact fun k _ => hd k
  case q_fft => intro k _; rw [hr2, hq0]; simp
  case a_fft => exact fun k _ => aOf_modes h (qaOf s) z k
  case eta_fft => intro k _; rw [eta_modes (qaOf s) z, hq', zero_add]; rfl
  case Jx_fft => exact fun _ _ => rfl
  case Jy_fft => exact fun _ _ => rfl
  case ux_fft => intro k _; rw [hv1 k, e0]; rfl

theorem coherent_onlywaves (s : Mode → ℂ × ℂ) : Coherent (onlywavesState p n S) s (· = .uy_fft) := by
  constructor
  · intro key r k2 g h ha hE l hl
    cases key <;> simp only [onlywavesState, rulesPhys, direct, ofK, ofX, ofKK, reduceCtorEq, Option.some.injEq] at h <;>
      subst h <;> simp only [reduceCtorEq, Option.some.injEq, Prod.mk.injEq] at ha
    exact absurd ha.1.symm hE
  · intro key r h d hd
    cases key <;> simp only [onlywavesState, rulesPhys, direct, ofK, ofX, ofKK, reduceCtorEq, Option.some.injEq] at h <;>
      subst h <;> simp only [List.mem_singleton, List.not_mem_nil, List.mem_cons, or_false] at hd <;>
      (first | subst hd | rcases hd with rfl | rfl) <;> decide

/-- C77: every variable of sw1l.onlywaves, except "uy_fft", is the documented function of the flow of its waves,
whatever was read before, for a state without mean flow. Missing: "uy_fft", see the next theorem. -/
theorem C77_onlywaves_partial (h : p.Ok) (s : Mode → ℂ × ℂ) (h0 : s 0 = 0) (key : Var) (hkey : key ≠ .uy_fft)
    (a : Arr n) (ha : doc p n S (fun k => uEtaFrom p k (qaOf s k)) key = some a) :
    Gives (onlywavesState p n S) s key (Same n S a) := by
  obtain ⟨v, hv, hs⟩ := onlywaves_value h s h0 key hkey a ha
  exact gives_of_value ranked_onlywaves rank_le (coherent_onlywaves s) hkey hv hs

/-- C77, finding: in sw1l.onlywaves, `get_var("uy_fft")` depends on what was read before: it raises an exception, for
every state, unless "ux_fft" has been read first in the same iteration; then it gives the documented variable. -/
theorem C77_onlywaves_uy_violated (h : p.Ok) (s : Mode → ℂ × ℂ) (h0 : s 0 = 0) :
    reads (onlywavesState p n S) s [.uy_fft] Cache.empty = [none] ∧
    ∃ a b, reads (onlywavesState p n S) s [.ux_fft, .uy_fft] Cache.empty = [some (.K a), some (.K b)] ∧
      Same n S (.K fun k => (uEtaFrom p k (qaOf s k)).uy) (.K b) := by
  refine ⟨rfl, _, _, rfl, ?_⟩
  have z := qaOf_zero h0
  have hr1 := fun k => (rot_modes h (qaOf s) z k).1
  have hd := fun k => div_modes h (qaOf s) z k
  have hv2 := fun k => (vel_modes h (qaOf s) z k).2
  have hq : ∀ k, rotFromQ p k (qaOf s k).q = 0 := by intro k; simp [rotFromQ, qaOf, invLap]
  simp only [hr1, hd, hq, zero_add] at hv2
  have e0 : (s 0).2 = 0 := by rw [h0]; rfl
  intro k _
  simp only [hv2 k, e0]
  rfl

/-! ### sw1l.modified -/

/-- C77: the variables of sw1l.modified which are not derived from "rot" or "div", and the two arrays "q_fft" and
"a_fft", are the documented functions of the flow, whatever was read before. Missing: "rot", "rot_fft", "div",
"div_fft" and "q", see the next theorem; "Jx", "Jy", "h" and "Floc" are not available in this solver. -/
theorem C77_modified_partial (u : Mode → UEta) (key : Var)
    (hkey : key ∈ [Var.ux, .uy, .eta, .ux_fft, .uy_fft, .eta_fft, .q_fft, .a_fft]) (a : Arr n)
    (ha : doc p n S u key = some a) : Gives (modifiedState p n S) u key (Same n S a) := by
  have hg : ∀ {key : Var} {v : Arr n}, value (modifiedState p n S) u key = some v → Same n S a v →
      Gives (modifiedState p n S) u key (Same n S a) := fun hv hR =>
    gives_of_value ranked_modified rankV_le (coherent_modified u) id hv hR
  simp only [List.mem_cons, List.not_mem_nil, or_false] at hkey
  rcases hkey with rfl | rfl | rfl | rfl | rfl | rfl | rfl | rfl <;>
    simp only [doc, Option.some.injEq] at ha <;> subst ha <;> refine hg rfl ?_
  all_goals simp only [Same, modifiedState, readSw1l, rot_doc, a_doc, qOf, implies_true]

/-- C77, finding: in sw1l.modified, "rot_fft" and "div_fft" are computed with "ux" in the place of "uy": for every flow
they are `i (kx - ky) ux_fft` and `i (kx + ky) ux_fft`; so are the fields "rot", "div" and "q" derived from them. For a
flow along y (`ux = 0`) the computed vorticity is zero whatever the flow; the vorticity is `i kx uy_fft`. -/
theorem C77_modified_rot_violated (hn : ∀ d, 0 < n d) (hD : Distinct n S) (u : Mode → UEta) :
    Gives (modifiedState p n S) u .rot_fft
      (Same n S (.K fun k => Complex.I * (p.kx k - p.ky k) * (u k).ux)) ∧
    Gives (modifiedState p n S) u .div_fft
      (Same n S (.K fun k => Complex.I * (p.kx k + p.ky k) * (u k).ux)) ∧
    Gives (modifiedState p n S) u .rot
      (Same n S (.X (gridVal n S fun k => Complex.I * (p.kx k - p.ky k) * (u k).ux))) ∧
    Gives (modifiedState p n S) u .q
      (Same n S (.X (gridVal n S fun k => Complex.I * (p.kx k - p.ky k) * (u k).ux - p.f * (u k).eta))) ∧
    ((∀ k, (u k).ux = 0) → Gives (modifiedState p n S) u .rot_fft (Same n S (.K 0)) ∧
      ∀ k ∈ S, p.kx k ≠ 0 → (u k).uy ≠ 0 →
        Complex.I * p.kx k * (u k).uy - Complex.I * p.ky k * (u k).ux ≠ 0) := by
  have hg : ∀ {key : Var} {R : Arr n → Prop} {v : Arr n}, value (modifiedState p n S) u key = some v → R v →
      Gives (modifiedState p n S) u key R := fun hv hR =>
    gives_of_value ranked_modified rankV_le (coherent_modified u) id hv hR
  have hf : ∀ k ∈ S, fftCoef n (gridVal n S fun k => (u k).ux) k = (u k).ux := fun k hk =>
    fft_grid hn hD (fun k => (u k).ux) hk
  have hr : ∀ k ∈ S, rotOf p k (fftCoef n (gridVal n S fun k => (u k).ux) k)
      (fftCoef n (gridVal n S fun k => (u k).ux) k) = Complex.I * (p.kx k - p.ky k) * (u k).ux := by
    intro k hk; rw [hf k hk]; simp only [rotOf]; ring
  refine ⟨hg rfl ?_, hg rfl ?_, hg rfl ?_, hg rfl ?_, fun h0 => ⟨hg rfl ?_, ?_⟩⟩
  · exact fun k hk => (hr k hk).symm
  · intro k hk
    simp only [hf k hk, divOf]; ring
  · intro j
    rw [grid_congr fun k hk => (hr k hk).symm]
  · intro j
    simp only [grid_sub, grid_smul]
    rw [grid_congr fun k hk => (hr k hk).symm]
  · intro k hk
    simp only [hr k hk, h0 k, mul_zero]
    rfl
  · intro k hk hx hy
    rw [h0 k, mul_zero, sub_zero]
    exact mul_ne_zero (mul_ne_zero Complex.I_ne_zero (by exact_mod_cast hx)) hy

/-! ### ns2d, ns2d.bouss, ns2d.strat -/

/-- The flow of a vorticity. -/
def flowOf (p : Par) (s : RotB) : Mode → UEta := fun k => ⟨uxOf p s k, uyOf p s k, 0⟩

theorem rot_flow (hp : ∀ d, p.δ d ≠ 0) (s : RotB) (h0 : s.rot 0 = 0) (k : Mode) :
    rotOf p k (uxOf p s k) (uyOf p s k) = s.rot k ∧ divOf p k (uxOf p s k) (uyOf p s k) = 0 := by
  by_cases hk : k = 0
  · subst hk
    simp [rotOf, divOf, Par.kx, Par.ky, h0]
  · have h : Par.Ok ⟨p.δ, 0, 1⟩ := ⟨hp, one_pos⟩
    have h2 := h.k2_pos hk
    have h1 := h.k2not0 hk
    simp only [Par.k2, Par.kx, Par.ky] at h1 h2
    have hK : (p.δ 0 * k 0 : ℂ) ^ 2 + (p.δ 1 * k 1 : ℂ) ^ 2 ≠ 0 := by exact_mod_cast h2.ne'
    have hc : ∀ {x y K r : ℂ}, K ≠ 0 → x ^ 2 + y ^ 2 = K →
        Complex.I * (x * (-Complex.I * x / K * r) - y * (Complex.I * y / K * r)) = r ∧
        Complex.I * (x * (Complex.I * y / K * r) + y * (-Complex.I * x / K * r)) = 0 := by
      intro x y K r h3 h4
      constructor
      · have : Complex.I * (x * (-Complex.I * x / K * r) - y * (Complex.I * y / K * r))
            = -(Complex.I ^ 2) * ((x ^ 2 + y ^ 2) / K) * r := by ring
        rw [this, h4, div_self h3, Complex.I_sq]; ring
      · ring
    simp only [rotOf, divOf, uxOf, uyOf, vecFromRot, Par.kx, Par.ky, h1]
    push_cast
    exact hc hK rfl

/-- C77: the variables of ns2d, ns2d.bouss and ns2d.strat are the documented functions of the non-divergent flow of the
vorticity of the state (which has no mean), whatever was read before; `div` is zero and `q` is the vorticity. -/
theorem C77_ns2d (hp : ∀ d, p.δ d ≠ 0) (hf : p.f = 0) (hn : ∀ d, 0 < n d) (hD : Distinct n S) (N : ℝ) (s : RotB)
    (h0 : s.rot 0 = 0) (key : Var)
    (hkey : key ∈ [Var.ux, .uy, .rot, .ux_fft, .uy_fft, .rot_fft, .div, .div_fft, .q]) (a : Arr n)
    (ha : doc p n S (flowOf p s) key = some a) :
    Gives (ns2dState p n S) s key (Same n S a) ∧ Gives (boussState p n S) s key (Same n S a) ∧
      Gives (stratState p n S N) s key (Same n S a) := by
  have h1 := fun k => (rot_flow hp s h0 k).1
  have h2 := fun k => (rot_flow hp s h0 k).2
  have fx : ∀ k ∈ S, fftCoef n (gridVal n S (uxOf p s)) k = uxOf p s k := fun k hk => fft_grid hn hD _ hk
  have fy : ∀ k ∈ S, fftCoef n (gridVal n S (uyOf p s)) k = uyOf p s k := fun k hk => fft_grid hn hD _ hk
  have fr : ∀ k ∈ S, rotOf p k (fftCoef n (gridVal n S (uxOf p s)) k) (fftCoef n (gridVal n S (uyOf p s)) k)
      = s.rot k := fun k hk => by rw [fx k hk, fy k hk, h1]
  have fd : ∀ k ∈ S, divOf p k (fftCoef n (gridVal n S (uxOf p s)) k) (fftCoef n (gridVal n S (uyOf p s)) k)
      = 0 := fun k hk => by rw [fx k hk, fy k hk, h2]
  have hg1 : ∀ {key : Var} {v : Arr n}, value (ns2dState p n S) s key = some v → Same n S a v →
      Gives (ns2dState p n S) s key (Same n S a) := fun hv hR =>
    gives_of_value ranked_ns2d rankV_le (coherent_ns2d s) id hv hR
  have hg2 : ∀ {key : Var} {v : Arr n}, value (boussState p n S) s key = some v → Same n S a v →
      Gives (boussState p n S) s key (Same n S a) := fun hv hR =>
    gives_of_value ranked_bouss rankV_le (coherent_bouss s) id hv hR
  have hg3 : ∀ {key : Var} {v : Arr n}, value (stratState p n S N) s key = some v → Same n S a v →
      Gives (stratState p n S N) s key (Same n S a) := fun hv hR =>
    gives_of_value (ranked_strat N) rankV_le (coherent_strat N s) id hv hR
  simp only [List.mem_cons, List.not_mem_nil, or_false] at hkey
  rcases hkey with rfl | rfl | rfl | rfl | rfl | rfl | rfl | rfl | rfl <;>
    simp only [doc, flowOf, rot_doc, div_doc, h1, h2, hf, Complex.ofReal_zero, zero_mul, sub_zero,
      Option.some.injEq] at ha <;> subst ha <;> refine ⟨hg1 rfl ?_, hg2 rfl ?_, hg3 rfl ?_⟩
  all_goals first
    | exact fun _ => rfl
    | exact fun _ _ => rfl
    | exact fun k hk => (fx k hk).symm
    | exact fun k hk => (fy k hk).symm
    | exact fun k hk => (fr k hk).symm
    | exact fun k hk => (fd k hk).symm
    | exact fun k _ => (h1 k).symm
    | exact fun k _ => (h2 k).symm
    | exact fun j => congrFun (grid_congr fun k hk => (fd k hk).symm) j
    | exact fun j => congrFun (grid_congr fun k hk => (fr k hk).symm) j
    | exact fun j => congrFun (grid_congr fun k _ => (h2 k).symm) j

/-- C77: the waves of ns2d.strat: "ap_fft", "am_fft" are the arrays of C40 and "ap", "am" their values on the grid,
whatever was read before. -/
theorem C77_strat_waves (N : ℝ) (s : RotB) :
    Gives (stratState p n S N) s .ap_fft (Same n S (.K (Strat.apFft p.δ N s.rot s.b))) ∧
    Gives (stratState p n S N) s .am_fft (Same n S (.K (Strat.amFft p.δ N s.rot s.b))) ∧
    Gives (stratState p n S N) s .ap (Same n S (.X (gridVal n S (Strat.apFft p.δ N s.rot s.b)))) ∧
    Gives (stratState p n S N) s .am (Same n S (.X (gridVal n S (Strat.amFft p.δ N s.rot s.b)))) := by
  have hg : ∀ {key : Var} {R : Arr n → Prop} {v : Arr n}, value (stratState p n S N) s key = some v → R v →
      Gives (stratState p n S N) s key R := fun hv hR =>
    gives_of_value (ranked_strat N) rankV_le (coherent_strat N s) id hv hR
  have e : ∀ k, Strat.apFft p.δ N s.rot s.b k
      = N ^ 2 * uyOf p s k + 1 * Complex.I * Strat.dispersion p.δ N k * s.b k := by
    intro k
    simp only [Strat.apFft, apFrom, uyOf, Strat.dispersion, Par.kx, Par.ky, one_mul, mul_div_assoc]
  have e' : ∀ k, Strat.amFft p.δ N s.rot s.b k
      = N ^ 2 * uyOf p s k - 1 * Complex.I * Strat.dispersion p.δ N k * s.b k := by
    intro k
    simp only [Strat.amFft, amFrom, uyOf, Strat.dispersion, Par.kx, Par.ky, one_mul, mul_div_assoc]
  exact ⟨hg rfl fun k _ => e k, hg rfl fun k _ => e' k,
    hg rfl fun j => congrFun (grid_congr fun k _ => e k) j,
    hg rfl fun j => congrFun (grid_congr fun k _ => e' k) j⟩

/-! ### The announced variables -/

/-- C77: `has_vars` is right when it answers yes: every announced variable can be read, whatever was read before. -/
theorem C77_announced (N : ℝ) (u : Mode → UEta) (s : Mode → QA) (w : Mode → ℂ × ℂ) (r : RotB) (key : Var) :
    (hasVar (sw1lState p n S) key = true → Gives (sw1lState p n S) u key fun _ => True) ∧
    (hasVar (exactlinState p n S) key = true → Gives (exactlinState p n S) s key fun _ => True) ∧
    (hasVar (onlywavesState p n S) key = true → Gives (onlywavesState p n S) w key fun _ => True) ∧
    (hasVar (modifiedState p n S) key = true → Gives (modifiedState p n S) u key fun _ => True) ∧
    (hasVar (ns2dState p n S) key = true → Gives (ns2dState p n S) r key fun _ => True) ∧
    (hasVar (boussState p n S) key = true → Gives (boussState p n S) r key fun _ => True) ∧
    (hasVar (stratState p n S N) key = true → Gives (stratState p n S N) r key fun _ => True) := by
  refine ⟨?_, ?_, ?_, ?_, ?_, ?_, ?_⟩
  · intro h
    cases key <;> first
      | (simp [hasVar, sw1lState] at h; done)
      | exact gives_of_value ranked_sw1l rank_le (coherent_sw1l u) id rfl trivial
  · intro h
    cases key <;> first
      | (simp [hasVar, exactlinState] at h; done)
      | exact gives_of_value ranked_exactlin rank_le (coherent_exactlin s) id rfl trivial
  · intro h
    cases key <;> first
      | (simp [hasVar, onlywavesState] at h; done)
      | exact gives_of_value ranked_onlywaves rank_le (coherent_onlywaves w) (by decide) rfl trivial
  · intro h
    cases key <;> first
      | (simp [hasVar, modifiedState] at h; done)
      | exact gives_of_value ranked_modified rankV_le (coherent_modified u) id rfl trivial
  · intro h
    cases key <;> first
      | (simp [hasVar, ns2dState] at h; done)
      | exact gives_of_value ranked_ns2d rankV_le (coherent_ns2d r) id rfl trivial
  · intro h
    cases key <;> first
      | (simp [hasVar, boussState] at h; done)
      | exact gives_of_value ranked_bouss rankV_le (coherent_bouss r) id rfl trivial
  · intro h
    cases key <;> first
      | (simp [hasVar, stratState] at h; done)
      | exact gives_of_value (ranked_strat N) rankV_le (coherent_strat N r) id rfl trivial

/-- C77, finding: `has_vars` answers no for variables which can be read: `q`, `div` and `rot_fft` in sw1l, `div` in
ns2d; the variable `d_fft`, listed in `keys_linear_eigenmodes`, can be read in none of the shallow-water solvers. -/
theorem C77_announced_violated (u : Mode → UEta) (s : Mode → QA) (w : Mode → ℂ × ℂ) (r : RotB) :
    (∀ key ∈ [Var.q, .div, .rot_fft], hasVar (sw1lState p n S) key = false ∧
      Gives (sw1lState p n S) u key fun _ => True) ∧
    (hasVar (ns2dState p n S) .div = false ∧ Gives (ns2dState p n S) r .div fun _ => True) ∧
    value (sw1lState p n S) u .d_fft = none ∧ value (exactlinState p n S) s .d_fft = none ∧
    value (onlywavesState p n S) w .d_fft = none ∧ value (modifiedState p n S) u .d_fft = none := by
  refine ⟨?_, ⟨rfl, gives_of_value ranked_ns2d rankV_le (coherent_ns2d r) id rfl trivial⟩, rfl, rfl, rfl, rfl⟩
  intro key hkey
  simp only [List.mem_cons, List.not_mem_nil, or_false] at hkey
  rcases hkey with rfl | rfl | rfl <;>
    exact ⟨rfl, gives_of_value ranked_sw1l rank_le (coherent_sw1l u) id rfl trivial⟩

/-! ### The hypotheses are met -/

/-- Normal modes without mean flow, with waves and vortices in the modes (±1, 0), rotating: hypotheses of
`C77_exactlin_partial` (and, for the two amplitudes of the waves, of `C77_onlywaves_partial`). -/
example : Par.Ok ⟨fun _ => 1, 2, 3⟩ ∧
    ∃ s : Mode → QA, s 0 = ⟨0, 0, 0⟩ ∧ s ![1, 0] = ⟨1, 2, 3⟩ ∧
      ∃ w : Mode → ℂ × ℂ, w 0 = 0 ∧ w ![1, 0] = (2, 3) ∧
        ∀ key ∈ [Var.ux, .rot, .a_fft, .q, .Floc], ∃ a,
          doc ⟨fun _ => 1, 2, 3⟩ n S (fun k => uEtaFrom ⟨fun _ => 1, 2, 3⟩ k (s k)) key = some a := by
  have h1 : (![1, 0] : Mode) ≠ 0 := fun h => by simpa using congrFun h 0
  refine ⟨⟨fun _ => one_ne_zero, by norm_num⟩, fun k => if k = 0 then ⟨0, 0, 0⟩ else ⟨1, 2, 3⟩, if_pos rfl, if_neg h1,
    fun k => if k = 0 then 0 else (2, 3), if_pos rfl, if_neg h1, ?_⟩
  intro key hkey
  simp only [List.mem_cons, List.not_mem_nil, or_false] at hkey
  rcases hkey with rfl | rfl | rfl | rfl | rfl <;> exact ⟨_, rfl⟩

/-- A flow along y in the modes (±1, 0) kept by a truncation with distinct modes: hypotheses of
`C77_modified_rot_violated` and, for a vorticity without mean, of `C77_ns2d`. -/
example : ∃ (n : Fin 2 → ℕ) (S : Finset Mode), (∀ d, 0 < n d) ∧ Distinct n S ∧ ![1, 0] ∈ S ∧
    ∃ u : Mode → UEta, (∀ k, (u k).ux = 0) ∧ (u ![1, 0]).uy ≠ 0 ∧ Par.kx ⟨fun _ => 1, 0, 1⟩ ![1, 0] ≠ 0 ∧
      ∃ r : RotB, r.rot 0 = 0 ∧ r.rot ![1, 0] = 1 := by
  have h1 : (![1, 0] : Mode) ≠ 0 := fun h => by simpa using congrFun h 0
  exact ⟨fun _ => 4, Sw1l.three, fun _ => by norm_num, Sw1l.three_distinct, by simp [Sw1l.three], fun _ => ⟨0, 1, 0⟩,
    fun _ => rfl, one_ne_zero, by simp [Par.kx], ⟨fun k => if k = 0 then 0 else 1, 0⟩, by simp, by simp [h1]⟩

end

end Verif.StateVars
