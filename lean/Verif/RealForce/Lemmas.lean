import Verif.RealForce.Model
import Verif.RealForce.Spec
import Verif.Forcing.Lemmas
import Verif.ForcedRegion.Props
import Verif.Coarse.Props
import Verif.Reality.PropsMore

/-! # C111: lemmas -/

set_option linter.unusedSectionVars false

namespace Verif.RealForce

open Verif.Forcing Verif.Energy Verif.Modes

noncomputable section

/-- A coarse force which is the half spectrum of a real field, without the Nyquist modes. -/
structure CoarseReal (m mx : ℕ) (f : ℕ → ℕ → ℂ) : Prop where
  real : Forcing.RealField (2 * m) (mx + 1) f
  nyquist : ∀ y x, y = m ∨ x = mx → f y x = 0

variable {m mx : ℕ}

theorem projRealX_real (hm : 0 < m) (nkx : ℕ) (f : ℕ → ℕ → ℂ) : Forcing.RealField (2 * m) nkx (projRealX (2 * m) nkx f) := by
  have he : Even (2 * m) := even_two_mul m
  intro x hx
  constructor
  · simp [projRealX, hx]
  · intro y h0 hy
    rw [projRealX_eq he (by omega) f hy hx, projRealX_eq he (by omega) f (by omega : 2 * m - y < 2 * m) hx,
      negRow_pos h0 hy, negRow_pos (by omega) (by omega), map_div₀, map_add, Complex.conj_conj, map_ofNat,
      Nat.sub_sub_self hy.le]
    ring

theorem projRealX_nyquist {f : ℕ → ℕ → ℂ} (hf : ∀ y x, y = m ∨ x = mx → f y x = 0) (y x : ℕ) (h : y = m ∨ x = mx) :
    projRealX (2 * m) (mx + 1) f y x = 0 := by
  have e : 2 * m / 2 = m := by omega
  rcases h with rfl | rfl
  · simp only [projRealX, e, hf y x (Or.inl rfl)]
    simp
  · simp only [projRealX, hf _ x (Or.inr rfl)]
    simp

theorem coarse_proj (hm : 0 < m) {f : ℕ → ℕ → ℂ} (hf : ∀ y x, y = m ∨ x = mx → f y x = 0) :
    CoarseReal m mx (projRealX (2 * m) (mx + 1) f) := ⟨projRealX_real hm _ f, projRealX_nyquist hf⟩

theorem coarse_raw (hm : 0 < m) {noF : ℕ → ℕ → Prop} (hF : ∀ y x, y = m ∨ x = mx → noF y x) (rnd : ℕ → ℕ → ℂ) :
    CoarseReal m mx (rawRandom (2 * m) (mx + 1) noF rnd) :=
  coarse_proj hm fun y x h => if_pos (hF y x h)

theorem CoarseReal.smul {f : ℕ → ℕ → ℂ} (h : CoarseReal m mx f) (c : ℝ) : CoarseReal m mx (fun y x => f y x * (c : ℂ)) := by
  refine ⟨fun x hx => ⟨?_, fun y h0 hy => ?_⟩, fun y x hyx => by simp only [h.nyquist y x hyx, zero_mul]⟩
  · simp [(h.real x hx).1]
  · simp only [(h.real x hx).2 y h0 hy, map_mul, Complex.conj_ofReal]

theorem CoarseReal.comb {f g : ℕ → ℕ → ℂ} (hf : CoarseReal m mx f) (hg : CoarseReal m mx g) (c : ℝ) :
    CoarseReal m mx (f - c • (f - g)) := by
  refine ⟨fun x hx => ⟨?_, fun y h0 hy => ?_⟩, fun y x hyx => ?_⟩
  · simp [(hf.real x hx).1, (hg.real x hx).1]
  · simp only [Pi.sub_apply, Pi.smul_apply, Complex.real_smul, (hf.real x hx).2 y h0 hy, (hg.real x hx).2 y h0 hy, map_sub, map_mul,
      Complex.conj_ofReal]
  · simp [hf.nyquist y x hyx, hg.nyquist y x hyx]

theorem coarse_partK (hm : 0 < m) {w : ℕ → ℝ} {dt rate : ℝ} {iy ix : ℕ} (h0 : iy ≠ m) (h1 : ix ≠ mx) {v f : ℕ → ℕ → ℂ}
    (hf : ∀ y x, y = m ∨ x = mx → f y x = 0) : CoarseReal m mx (normalizePartK w (2 * m) (mx + 1) dt rate iy ix v f) := by
  have h2 := projRealX_nyquist hf
  refine (coarse_proj hm ?_).smul _
  intro y x h
  simp only [setEntry]
  rw [if_neg (by rintro ⟨rfl, rfl⟩; omega)]
  exact h2 y x h

/-- A property of the two fields which every new one has and which linear combinations keep is true for all the forces. -/
theorem tcr_inv {G F : Type} [AddCommGroup F] [Module ℝ F] {P : F → Prop} (hP : ∀ f g, P f → P g → ∀ c : ℝ, P (f - c • (f - g)))
    {r : Rng G F} (hr : ∀ g, P (r.raw g).1) (save : Bool) (period : ℝ) :
    ∀ (ts : List ℝ) (s : Tcr G F), P s.f0 → P s.f1 → ∀ f ∈ (tcrRun r save period ts s).2, P f
  | [], _, _, _, f, hf => by simp [tcrRun] at hf
  | t :: ts, s, h0, h1, f, hf => by
    have hs : P (tcrChange r save period t s).f0 ∧ P (tcrChange r save period t s).f1 := by
      simp only [tcrChange]
      split
      · exact ⟨h1, hr _⟩
      · exact ⟨h0, h1⟩
    simp only [tcrRun, tcrEach, List.mem_cons] at hf
    rcases hf with rfl | hf
    · exact hP _ _ hs.2 hs.1 _
    · exact tcr_inv hP hr save period ts _ hs.1 hs.2 f hf

theorem tcr_init {G F : Type} {P : F → Prop} {r : Rng G F} (hr : ∀ g, P (r.raw g).1) {save : Bool} {file : StateFile} {t : ℝ} {g : G}
    {s : Tcr G F} (h : tcrInit r save file t g = .ok s) : P s.f0 ∧ P s.f1 := by
  cases file <;> simp only [tcrInit, Except.ok.injEq, reduceCtorEq] at h <;> subst h <;> exact ⟨hr _, hr _⟩

/-! ### in the full array -/

variable {nky nkx : ℕ}

theorem putForcing_ok (h0 : 2 * m ≤ nky) (h1 : mx + 1 ≤ nkx) {f : ℕ → ℕ → ℂ} (hf : CoarseReal m mx f) (arr : ℕ × ℕ → ℂ) :
    ∃ o, putForcing (2 * m, mx + 1) (nky, nkx) f arr = .ok o := by
  refine (Coarse.C26_put_2d_ok_iff (fun z : ℂ => ‖z‖) (2 * m, mx + 1) (nky, nkx) h0 h1 (fun p => f p.1 p.2) arr).2 ⟨?_, ?_⟩
  · intro j _
    have e : 2 * m / 2 = m := by omega
    simp [e, hf.nyquist m j (Or.inl rfl), Coarse.Negligible]
  · intro i _
    simp [hf.nyquist i mx (Or.inr rfl), Coarse.Negligible]

theorem put_inside (h0 : 2 * m ≤ nky) (h1 : mx + 1 ≤ nkx) {f : ℕ → ℕ → ℂ} (hf : CoarseReal m mx f) {arr o : ℕ × ℕ → ℂ}
    (ha : Inside m mx nky nkx arr) (ho : putForcing (2 * m, mx + 1) (nky, nkx) f arr = .ok o) : Inside m mx nky nkx o := by
  have hp := Coarse.C26_put_2d _ (2 * m, mx + 1) (nky, nkx) h0 h1 _ _ _ ho
  intro ky kx j0 j1 H0 H1 hc
  by_cases hex : ∃ i0 i1, Holds (2 * m) i0 ky ∧ HoldsHalf (mx + 1) i1 kx
  · obtain ⟨i0, i1, I0, I1⟩ := hex
    rw [(hp ky kx j0 j1 H0 H1).1 i0 i1 I0 I1]
    refine hf.nyquist i0 i1 ?_
    rw [holds_iff] at I0
    obtain ⟨a, b⟩ := I1
    rcases hc with hc | hc
    · left
      rcases le_abs.1 hc with h | h <;> omega
    · right; omega
  · rw [(hp ky kx j0 j1 H0 H1).2 hex]
    exact ha ky kx j0 j1 H0 H1 hc

theorem put_conj (hm : 0 < m) (h0 : 2 * m ≤ nky) (h1 : mx + 1 ≤ nkx) {f : ℕ → ℕ → ℂ} (hf : CoarseReal m mx f) {arr o : ℕ × ℕ → ℂ}
    (ha : Inside m mx nky nkx arr) (ho : putForcing (2 * m, mx + 1) (nky, nkx) f arr = .ok o) : ConjugateColumn nky o := by
  have hp := Coarse.C26_put_2d _ (2 * m, mx + 1) (nky, nkx) h0 h1 _ _ _ ho
  have hi := put_inside h0 h1 hf ha ho
  intro ky j j' H H'
  have X : HoldsHalf nkx 0 0 := ⟨by omega, rfl⟩
  have X' : HoldsHalf (mx + 1) 0 0 := ⟨by omega, rfl⟩
  by_cases hk : (m : ℤ) ≤ |ky|
  · rw [hi ky 0 j 0 H X (Or.inl hk), hi (-ky) 0 j' 0 H' X (Or.inl (by rwa [abs_neg])), map_zero]
  · have hb := abs_lt.1 (not_le.1 hk)
    have key : ∀ k : ℤ, -(m : ℤ) < k → k < m → Holds (2 * m) (if 0 ≤ k then k.toNat else (2 * m + k).toNat) k := by
      intro k a b
      rw [holds_iff]
      split <;> omega
    have I := key ky hb.1 hb.2
    have I' := key (-ky) (by omega) (by omega)
    rw [(hp ky 0 j 0 H X).1 _ 0 I X', (hp (-ky) 0 j' 0 H' X).1 _ 0 I' X']
    have hr := hf.real 0 (Or.inl rfl)
    rcases lt_trichotomy ky 0 with h | h | h
    · rw [if_pos (by omega), if_neg (by omega)]
      have := hr.2 (2 * m + ky).toNat (by omega) (by omega)
      have e : 2 * m - (2 * m + ky).toNat = (-ky).toNat := by omega
      rw [e] at this
      exact this
    · subst h
      simpa using (Complex.conj_eq_iff_im.2 hr.1).symm
    · rw [if_neg (by omega), if_pos (by omega)]
      have := hr.2 ky.toNat (by omega) (by omega)
      have e : 2 * m - ky.toNat = (2 * m + -ky).toNat := by omega
      rw [e] at this
      exact this

/-- All the values of `forcing_fft` during a simulation. -/
theorem forcingRun_real (hm : 0 < m) (h0 : 2 * m ≤ nky) (h1 : mx + 1 ≤ nkx) :
    ∀ (fs : List (ℕ → ℕ → ℂ)) (arr : ℕ × ℕ → ℂ), Inside m mx nky nkx arr → (∀ f ∈ fs, CoarseReal m mx f) →
      ∃ os, forcingRun (2 * m, mx + 1) (nky, nkx) fs arr = .ok os ∧ os.length = fs.length ∧
        ∀ o ∈ os, ConjugateColumn nky o ∧ Inside m mx nky nkx o
  | [], _, _, _ => ⟨[], rfl, rfl, by simp⟩
  | f :: fs, arr, ha, hf => by
    have hf0 := hf f (by simp)
    obtain ⟨o, ho⟩ := putForcing_ok h0 h1 hf0 arr
    have hi := put_inside h0 h1 hf0 ha ho
    obtain ⟨os, e, el, hos⟩ := forcingRun_real hm h0 h1 fs o hi fun g hg => hf g (by simp [hg])
    refine ⟨o :: os, by simp only [forcingRun, ho, e], by simp [el], fun o' ho' => ?_⟩
    rcases List.mem_cons.1 ho' with rfl | h
    · exact ⟨put_conj hm h0 h1 hf0 ha ho, hi⟩
    · exact hos o' h

theorem inside_zero : Inside m mx nky nkx (fun _ => 0) := fun _ _ _ _ _ _ _ => rfl

/-! ### the forced modes -/

theorem noF2_sym (hm : 0 < m) (dky dkx kmin kmax : ℝ) {y : ℕ} (hy : y < 2 * m) (x : ℕ) :
    ForcedRegion.noF2 dky dkx kmin kmax (2 * m) (mx + 1) (negRow (2 * m) y) x ↔
      ForcedRegion.noF2 dky dkx kmin kmax (2 * m) (mx + 1) y x := by
  have e : 2 * m / 2 = m := by omega
  have h : (ForcedRegion.adim (2 * m) (negRow (2 * m) y)) ^ 2 = (ForcedRegion.adim (2 * m) y) ^ 2 := by
    rcases Nat.eq_zero_or_pos y with rfl | h0
    · rw [negRow_zero]
    · rw [negRow_pos h0 hy]
      simp only [ForcedRegion.adim, e]
      rcases lt_trichotomy y m with h | h | h
      · rw [if_neg (by omega), if_pos (by omega), show (((2 * m - y : ℕ) : ℤ) - (2 * m : ℕ)) = -(y : ℤ) by omega, neg_sq]
      · rw [show 2 * m - y = y by omega]
      · rw [if_pos (by omega), if_neg (by omega), show ((2 * m - y : ℕ) : ℤ) = -((y : ℤ) - (2 * m : ℕ)) by omega, neg_sq]
  have h' : ((ForcedRegion.adim (2 * m) (negRow (2 * m) y) : ℤ) : ℝ) ^ 2 = ((ForcedRegion.adim (2 * m) y : ℤ) : ℝ) ^ 2 := by exact_mod_cast h
  have hr : negRow (2 * m) y = 2 * m / 2 ↔ y = 2 * m / 2 := by
    rcases Nat.eq_zero_or_pos y with rfl | h0
    · rw [negRow_zero]
    · rw [negRow_pos h0 hy]; omega
  simp only [ForcedRegion.noF2, ForcedRegion.normK2, mul_pow, h', hr]

theorem raw_zero (hm : 0 < m) {noF : ℕ → ℕ → Prop} (hs : ∀ y x, y < 2 * m → (noF (negRow (2 * m) y) x ↔ noF y x)) {rnd : ℕ → ℕ → ℂ}
    {y x : ℕ} (hy : y < 2 * m) (h : noF y x) : rawRandom (2 * m) (mx + 1) noF rnd y x = 0 := by
  by_cases hx : x = 0 ∨ x = mx + 1 - 1
  · rw [rawRandom, projRealX_eq (even_two_mul m) (by omega) _ hy hx, if_pos h, if_pos ((hs y x hy).2 h)]
    simp
  · rw [rawRandom, projRealX_other _ hx, if_pos h]

/-! ### the field -/

theorem row_holds {nky : ℕ} {k : ℤ} (h : 2 * |k| < nky) : Holds nky (k % nky).toNat k := by
  have hb := abs_lt.1 (show |k| < (nky : ℤ) by have := abs_nonneg k; omega)
  rw [holds_iff]
  rcases le_or_gt 0 k with h0 | h0
  · rw [abs_of_nonneg h0] at h
    rw [Int.emod_eq_of_lt h0 hb.2]
    omega
  · rw [abs_of_neg h0] at h
    rw [← Int.add_emod_right, Int.emod_eq_of_lt (by omega) (by omega)]
    omega

theorem stored_conj {S : Finset (Fin 2 → ℤ)} (hS : ∀ k ∈ S, -k ∈ S) {nky : ℕ} (hy : ∀ k ∈ S, 2 * |k 1| < nky) {o : ℕ × ℕ → ℂ}
    (ho : ConjugateColumn nky o) (k : Fin 2 → ℤ) (hk : k ∈ S) :
    storedField S nky o (-k) = (starRingEnd ℂ) (storedField S nky o k) := by
  simp only [storedField, if_pos hk, if_pos (hS k hk), Pi.neg_apply, neg_neg]
  rcases lt_trichotomy (k 0) 0 with h | h | h
  · rw [if_pos (by omega), if_neg (by omega), Complex.conj_conj]
  · rw [if_pos (by omega), if_pos (by omega), h]
    have a := row_holds (hy k hk)
    have b : Holds nky ((-k 1) % nky).toNat (-k 1) := row_holds (by rw [abs_neg]; exact hy k hk)
    exact ho (k 1) _ _ a b
  · rw [if_neg (by omega), if_pos (by omega)]

end

end Verif.RealForce
