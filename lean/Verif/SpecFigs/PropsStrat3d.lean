import Verif.SpecFigs.ModelStrat3d
import Verif.SpecFigs.Lemmas
import Verif.Spectra.Model
import Verif.Vectors.Model

/-! # C102: the averaged spectra of ns3d.strat -/

namespace Verif.SpecFigs

/-- What a curve shows: the spectrum `s` multiplied by `k ** coef`, for the wavenumbers which are not zero and where `drawn` holds. -/
def Shows {m : ℕ} (ks : Fin m → ℝ) (coef : ℝ) (s : Fin m → ℝ) (drawn : Fin m → Prop) (c : Fin m → Option ℝ) : Prop :=
  ∀ i, (ks i ≠ 0 → drawn i → c i = some (s i * ks i ^ coef)) ∧ (ks i = 0 ∨ ¬ drawn i → c i = none)

/-- The datasets of a file in the direction `dir` (`""` for the 3D spectra, `"_kx"`, `"_ky"`, `"_kz"`): total kinetic energy, potential
energy, energy of the horizontally divergent part, energy of the vertical velocity. -/
structure Saved {m : ℕ} (f : NamedFile m) (dir : Option String) (N : ℕ) (E A D Z : ℕ → Fin m → ℝ) : Prop where
  E : f.data ("spectra_E" ++ (dir.map fun d => "_k" ++ d).getD "") = some ((List.range N).map E)
  A : f.data ("spectra_A" ++ (dir.map fun d => "_k" ++ d).getD "") = some ((List.range N).map A)
  D : f.data ("spectra_Khd" ++ (dir.map fun d => "_k" ++ d).getD "") = some ((List.range N).map D)
  Z : f.data ("spectra_vz" ++ (dir.map fun d => "_k" ++ d).getD "") = some ((List.range N).map Z)

theorem key_eq (dir : Option String) {kind b : String} (h : stratBase kind = .ok b) :
    stratKey dir kind = .ok ("spectra_" ++ b ++ (dir.map fun d => "_k" ++ d).getD "") := by
  simp only [stratKey, h]
  cases dir with
  | none => simp
  | some d => simp [String.append_assoc]

theorem averaged_eq {m : ℕ} {f : NamedFile m} {dir : Option String} {N : ℕ} {s : ℕ → Fin m → ℝ} {kind b : String}
    (h : stratBase kind = .ok b) (hs : f.data ("spectra_" ++ b ++ (dir.map fun d => "_k" ++ d).getD "") = some ((List.range N).map s))
    {i0 i1 : ℕ} (h0 : i0 ≤ i1) (h1 : i1 < N) : averaged f dir i0 i1 kind = .ok fun i => maskNan (timeMean s i0 i1 i) := by
  simp only [averaged, key_eq dir h, hs]
  congr 1
  funext i
  have hr : Records (List.replicate N (0 : ℝ)) ((List.range N).map s) s := by simp [Records]
  rw [average_records hr h0 (by simpa using h1)]
  rfl

theorem shows_mask {m : ℕ} (ks : Fin m → ℝ) (coef : ℝ) (s : Fin m → ℝ) :
    Shows ks coef s (fun i => 1e-15 ≤ s i) (compensated coef ks fun i => maskNan (s i)) := by
  intro i
  refine ⟨fun hk hM => ?_, fun hk => ?_⟩
  · simp only [compensated, comp, if_neg hk, maskNan]
    rw [if_neg (by norm_num at hM ⊢; exact hM)]
  · simp only [compensated, comp, maskNan]
    rcases hk with hk | hk
    · rw [if_pos hk]; split <;> simp_all
    · rw [if_pos (by norm_num at hk ⊢; exact hk)]

theorem shows_sum {m : ℕ} (ks : Fin m → ℝ) (coef : ℝ) (s t : Fin m → ℝ) :
    Shows ks coef (fun i => s i + t i) (fun i => 1e-15 ≤ s i ∧ 1e-15 ≤ t i)
      (compensated coef ks (addNan (fun i => maskNan (s i)) fun i => maskNan (t i))) := by
  intro i
  refine ⟨fun hk hM => ?_, fun hk => ?_⟩
  · simp only [compensated, comp, if_neg hk, maskNan, addNan]
    rw [if_neg (by have := hM.1; norm_num at this ⊢; exact this), if_neg (by have := hM.2; norm_num at this ⊢; exact this)]
  · rcases hk with hk | hk
    · simp only [compensated, comp]
      rw [if_pos hk]; split <;> simp_all
    · have e : addNan (fun i => maskNan (s i)) (fun i => maskNan (t i)) i = none := by
        simp only [addNan, maskNan]
        rcases not_and_or.1 hk with h | h
        · rw [if_pos (by norm_num at h ⊢; exact h)]
        · rw [if_pos (c := t i < _) (by norm_num at h ⊢; exact h)]
          split <;> simp_all
      simp only [compensated, e]

/-- C102 (ns3d.strat): the averages drawn are those of the kinetic and of the potential energy over the records; the third curve, which exists
except if `params.projection` does not exist or is "toroidal", is the poloidal energy: horizontally divergent part and vertical velocity.
Partial: it is drawn only where both parts are at least 1e-15, not where their sum is (`C102_strat_poloidal_violated`). -/
theorem C102_strat_averages_partial {m : ℕ} {f : NamedFile m} {dir : Option String} {N : ℕ} {E A D Z : ℕ → Fin m → ℝ}
    (h : Saved f dir N E A D Z) {i0 i1 : ℕ} (h0 : i0 ≤ i1) (h1 : i1 < N) (coef : ℝ) (proj : Option (Option String)) :
    ∃ cK cA, Shows f.ks coef (timeMean E i0 i1) (fun i => 1e-15 ≤ timeMean E i0 i1 i) cK ∧
      Shows f.ks coef (timeMean A i0 i1) (fun i => 1e-15 ≤ timeMean A i0 i1 i) cA ∧
      (proj = none ∨ proj = some (some "toroidal") → stratAverages f dir i0 i1 coef proj = .ok [("K", cK), ("A", cA)]) ∧
      (proj ≠ none → proj ≠ some (some "toroidal") → ∃ cP, stratAverages f dir i0 i1 coef proj = .ok [("K", cK), ("A", cA), ("polo", cP)] ∧
        Shows f.ks coef (fun i => timeMean D i0 i1 i + timeMean Z i0 i1 i)
          (fun i => 1e-15 ≤ timeMean D i0 i1 i ∧ 1e-15 ≤ timeMean Z i0 i1 i) cP) := by
  have eE := averaged_eq (kind := "K") (b := "E") rfl h.E h0 h1
  have eA := averaged_eq (kind := "A") (b := "A") rfl h.A h0 h1
  have eD := averaged_eq (kind := "Khd") (b := "Khd") rfl h.D h0 h1
  have eZ := averaged_eq (kind := "Kz") (b := "vz") rfl h.Z h0 h1
  refine ⟨_, _, shows_mask f.ks coef _, shows_mask f.ks coef _, ?_, ?_⟩
  · rintro (rfl | rfl)
    · simp only [stratAverages, eE, eA]
    · simp only [stratAverages, eE, eA, if_true]
  · intro hn ht
    refine ⟨_, ?_, shows_sum f.ks coef _ _⟩
    cases proj with
    | none => exact absurd rfl hn
    | some p =>
      have hp : p ≠ some "toroidal" := fun e => ht (by rw [e])
      simp only [stratAverages, eE, eA, eD, eZ, if_neg hp]
      rfl

/-- C102 (ns3d.strat, names): the names used by the figure are names of datasets of the files, in the three directions and for the 3D
spectra. -/
theorem C102_strat_names (dir : Option String) (hd : dir = none ∨ dir = some "x" ∨ dir = some "y" ∨ dir = some "z") (kind : String)
    (hk : kind ∈ ["K", "A", "Khd", "Kz"]) :
    ∃ key, stratKey dir kind = .ok key ∧ key ∈ if dir = none then Spectra.keys3Strat else Spectra.keys1Strat := by
  simp only [List.mem_cons, List.not_mem_nil, or_false] at hk
  rcases hd with rfl | rfl | rfl | rfl <;> rcases hk with rfl | rfl | rfl | rfl <;> exact ⟨_, rfl, by decide +kernel⟩

/-- C102, finding: the poloidal energy is not drawn where one of its two parts is smaller than 1e-15, although the sum is not: for a flow
with vertical motions that does not depend on the height (no horizontal divergence), the poloidal energy is the one of the vertical velocity
and the curve is empty. -/
theorem C102_strat_poloidal_violated {m : ℕ} {f : NamedFile m} {dir : Option String} {N : ℕ} {E A Z : ℕ → Fin m → ℝ}
    (h : Saved f dir N E A (fun _ _ => 0) Z) {i0 i1 : ℕ} (h0 : i0 ≤ i1) (h1 : i1 < N) (coef : ℝ) :
    ∃ cK cA cP, stratAverages f dir i0 i1 coef (some none) = .ok [("K", cK), ("A", cA), ("polo", cP)] ∧ ∀ i, cP i = none := by
  obtain ⟨cK, cA, -, -, -, key⟩ := C102_strat_averages_partial h h0 h1 coef (some none)
  obtain ⟨cP, e, hP⟩ := key (by simp) (by simp)
  refine ⟨cK, cA, cP, e, fun i => (hP i).2 (Or.inr ?_)⟩
  simp only [timeMean, Finset.sum_const_zero, zero_div]
  norm_num

/-- C102, finding: `params.projection = "vortical"` is the same projection as "toroidal" (no poloidal motion), but only for the second one the
curve of the poloidal energy is left out. -/
theorem C102_strat_vortical_violated {m : ℕ} {f : NamedFile m} {dir : Option String} {N : ℕ} {E A D Z : ℕ → Fin m → ℝ}
    (h : Saved f dir N E A D Z) {i0 i1 : ℕ} (h0 : i0 ≤ i1) (h1 : i1 < N) (coef : ℝ) :
    Vectors.chooseProjector (some "vortical") = Vectors.chooseProjector (some "toroidal") ∧
    ∃ c2 c3, stratAverages f dir i0 i1 coef (some (some "toroidal")) = .ok c2 ∧ stratAverages f dir i0 i1 coef (some (some "vortical")) = .ok c3 ∧
      c2.map (·.1) = ["K", "A"] ∧ c3.map (·.1) = ["K", "A", "polo"] := by
  refine ⟨rfl, ?_⟩
  obtain ⟨cK, cA, -, -, kt, -⟩ := C102_strat_averages_partial h h0 h1 coef (some (some "toroidal"))
  obtain ⟨cK', cA', -, -, -, kv⟩ := C102_strat_averages_partial h h0 h1 coef (some (some "vortical"))
  obtain ⟨cP, e, -⟩ := kv (by simp) (by simp)
  exact ⟨_, _, kt (.inr rfl), e, rfl, rfl⟩

/-- A file with two records in the direction x, of a flow with vertical motions only. -/
example : Saved (m := 3) ⟨fun i => i, fun key =>
    if key = "spectra_E_kx" ∨ key = "spectra_vz_kx" then some [fun _ => 1, fun _ => 2]
    else if key = "spectra_A_kx" ∨ key = "spectra_Khd_kx" then some [fun _ => 0, fun _ => 0] else none⟩ (some "x") 2
    (fun j _ => j + 1) (fun _ _ => 0) (fun _ _ => 0) (fun j _ => j + 1) := by
  have h : (List.range 2).map (fun (j : ℕ) (_ : Fin 3) => (j : ℝ) + 1) = [fun _ => 1, fun _ => 2] := by
    simp [List.range_succ]; norm_num
  refine ⟨?_, ?_, ?_, ?_⟩
  · rw [h]; rfl
  · rfl
  · rfl
  · rw [h]; rfl

end Verif.SpecFigs
