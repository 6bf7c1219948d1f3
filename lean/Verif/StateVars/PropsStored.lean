import Verif.StateVars.Props

/-! # C77: the stored normal modes, the mean velocity and the announced variables -/

set_option linter.unusedSectionVars false
set_option linter.unusedSimpArgs false

namespace Verif.StateVars

open Verif.Fourier Verif.Energy Verif.Forcing Verif.Sw1l Finset

noncomputable section

variable {p : Par} {n : Fin 2 → ℕ} {S : Finset Mode}

/-- C77: the variables "q_fft", "ap_fft" and "am_fft" of sw1l.exactlin are the normal modes of the flow, for every mode other than the
mean flow, whatever was read before. -/
theorem C77_exactlin_modes (h : p.Ok) (s : Mode → QA) {k : Mode} (hk : k ≠ 0) :
    let m := qapam p k (uEtaFrom p k (s k))
    Gives (exactlinState p n S) s .q_fft (fun v => ∃ a, v = .K a ∧ a k = m.q) ∧
    Gives (exactlinState p n S) s .ap_fft (fun v => ∃ a, v = .K a ∧ a k = m.ap) ∧
    Gives (exactlinState p n S) s .am_fft (fun v => ∃ a, v = .K a ∧ a k = m.am) := by
  have e := C39_roundtrip_qapam h hk (s k)
  simp only [e]
  exact ⟨gives_of_value ranked_exactlin rank_le (coherent_exactlin s) id rfl ⟨_, rfl, rfl⟩,
    gives_of_value ranked_exactlin rank_le (coherent_exactlin s) id rfl ⟨_, rfl, rfl⟩,
    gives_of_value ranked_exactlin rank_le (coherent_exactlin s) id rfl ⟨_, rfl, rfl⟩⟩

/-- C77: the same for sw1l.onlywaves. -/
theorem C77_onlywaves_modes (h : p.Ok) (s : Mode → ℂ × ℂ) {k : Mode} (hk : k ≠ 0) :
    let m := qapam p k (uEtaFrom p k (qaOf s k))
    Gives (onlywavesState p n S) s .ap_fft (fun v => ∃ a, v = .K a ∧ a k = m.ap) ∧
    Gives (onlywavesState p n S) s .am_fft (fun v => ∃ a, v = .K a ∧ a k = m.am) := by
  have e := C39_roundtrip_qapam h hk (qaOf s k)
  simp only [e]
  exact ⟨gives_of_value ranked_onlywaves rank_le (coherent_onlywaves s) (by decide) rfl ⟨_, rfl, rfl⟩,
    gives_of_value ranked_onlywaves rank_le (coherent_onlywaves s) (by decide) rfl ⟨_, rfl, rfl⟩⟩

/-- C77, finding: in sw1l.exactlin, for a state with the mean velocity `(ux, uy)` (normal modes computed by the solver), the mean modes
of the variables "ux_fft" and "uy_fft" are `ux + i uy` and `ux - i uy`, whatever was read before; those of a state of sw1l.onlywaves
with the same modes of waves, the same for "ux_fft". -/
theorem C77_mean_velocity_violated (u : UEta) (s : Mode → QA) (h0 : s 0 = qapam p 0 u) (w : Mode → ℂ × ℂ)
    (hw : w 0 = ((qapam p 0 u).ap, (qapam p 0 u).am)) :
    Gives (exactlinState p n S) s .ux_fft (fun v => ∃ a, v = .K a ∧ a 0 = u.ux + Complex.I * u.uy) ∧
    Gives (exactlinState p n S) s .uy_fft (fun v => ∃ a, v = .K a ∧ a 0 = u.ux - Complex.I * u.uy) ∧
    Gives (onlywavesState p n S) w .ux_fft (fun v => ∃ a, v = .K a ∧ a 0 = u.ux + Complex.I * u.uy) := by
  refine ⟨gives_of_value ranked_exactlin rank_le (coherent_exactlin s) id rfl ⟨_, rfl, ?_⟩,
    gives_of_value ranked_exactlin rank_le (coherent_exactlin s) id rfl ⟨_, rfl, ?_⟩,
    gives_of_value ranked_onlywaves rank_le (coherent_onlywaves w) (by decide) rfl ⟨_, rfl, ?_⟩⟩
  · simp [velX, h0, qapam]
  · simp [velY, h0, qapam]
  · simp [velX, hw, qapam]

/-- C77: in ns2d.strat `has_vars` announces all the variables which can be computed, except "q". -/
theorem C77_strat_announces_all (N : ℝ) (r : RotB) (key : Var) (h : value (stratState p n S N) r key ≠ none) :
    hasVar (stratState p n S N) key = true ∨ key = .q := by
  cases key <;> first | exact Or.inl rfl | exact Or.inr rfl | exact absurd rfl h

example (N : ℝ) (r : RotB) : value (stratState p n S N) r .am ≠ none := by
  intro h; cases h

end

end Verif.StateVars
