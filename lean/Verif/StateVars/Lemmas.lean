import Verif.StateVars.Spec

/-! # Lemmas: the dictionary does not change the values -/

namespace Verif.StateVars

open Verif.Fourier Verif.Energy Verif.Sw1l

variable {St V : Type} (sys : Sys St V) (st : St)

/-- `rank` decreases along the calls of `compute`. -/
def Ranked (rank : Var → ℕ) : Prop :=
  ∀ key r, sys.rules key = some r → ∀ d ∈ r.deps, rank d < rank key

/-- The second variables saved by `compute`, except those in `E`, are the values of these variables, and no branch
calls `compute` for a variable of `E`. -/
def Coherent (E : Var → Prop) : Prop :=
  (∀ key r k2 g, sys.rules key = some r → r.also = some (k2, g) → ¬E k2 →
    ∀ l, r.deps.mapM (evalF sys st 7) = some l → evalF sys st 8 k2 = some (g st l)) ∧
  ∀ key r, sys.rules key = some r → ∀ d ∈ r.deps, ¬E d

variable {sys st}

theorem mapM_congr {f g : Var → Option V} : ∀ {l : List Var}, (∀ d ∈ l, f d = g d) → l.mapM f = l.mapM g
  | [], _ => rfl
  | d :: l, h => by
    rw [List.mapM_cons, List.mapM_cons, h d (by simp), mapM_congr fun e he => h e (by simp [he])]

theorem evalF_stable {rank : Var → ℕ} (hr : Ranked sys rank) :
    ∀ f key, rank key < f → evalF sys st f key = evalF sys st (rank key + 1) key := by
  intro f
  induction f using Nat.strong_induction_on with
  | _ f ih =>
    intro key hf
    obtain ⟨f, rfl⟩ : ∃ m, f = m + 1 := ⟨f - 1, by omega⟩
    rw [evalF, evalF]
    cases hk : sys.rules key with
    | none => rfl
    | some r =>
      have : r.deps.mapM (evalF sys st f) = r.deps.mapM (evalF sys st (rank key)) := by
        refine mapM_congr fun d hd => ?_
        have h1 := hr key r hk d hd
        rw [ih f (by omega) d (by omega)]
        rcases Nat.lt_or_ge (rank key) (f + 1) with h2 | h2
        · exact (ih (rank key) (by omega) d h1).symm
        · omega
      simp only [this]

/-- The dictionary holds only values of the present state (except for the variables in `E`). -/
def Good (sys : Sys St V) (st : St) (E : Var → Prop) (c : Cache V) : Prop :=
  ∀ k v, ¬E k → c k = some v → evalF sys st 8 k = some v

variable {E : Var → Prop}

theorem Good.save {c : Cache V} (hc : Good sys st E c) {k : Var} {v : V}
    (hv : ¬E k → evalF sys st 8 k = some v) : Good sys st E (c.save k v) := by
  intro k' v' hE h
  simp only [Cache.save] at h
  split_ifs at h with hk
  · cases h; rw [hk]; exact hv (hk ▸ hE)
  · exact hc k' v' hE h

theorem computeAll_good {rank : Var → ℕ} {f m : ℕ}
    (ih : ∀ key c, rank key < f → Good sys st E c →
      (¬E key → (compute sys st f key c).1 = evalF sys st 8 key) ∧ Good sys st E (compute sys st f key c).2) :
    ∀ (ks : List Var) (c : Cache V), m ≤ f → (∀ d ∈ ks, rank d < m) → (∀ d ∈ ks, ¬E d) → Good sys st E c →
      (computeAll (compute sys st f) ks c).1 = ks.mapM (evalF sys st 8) ∧
        Good sys st E (computeAll (compute sys st f) ks c).2 := by
  intro ks
  induction ks with
  | nil => intro c _ _ _ hc; exact ⟨rfl, hc⟩
  | cons k ks ihk =>
    intro c hm hd hE hc
    have h1 := ih k c (lt_of_lt_of_le (hd k (by simp)) hm) hc
    replace h1 := And.intro (h1.1 (hE k (by simp))) h1.2
    rw [List.mapM_cons, computeAll]
    revert h1
    rcases compute sys st f k c with ⟨_ | v, c'⟩
    · rintro ⟨h1, h2⟩
      simp only [] at h1 h2
      rw [← h1]
      exact ⟨rfl, h2⟩
    · rintro ⟨h1, h2⟩
      simp only [] at h1 h2
      have h3 := ihk c' hm (fun d h => hd d (by simp [h])) (fun d h => hE d (by simp [h])) h2
      rw [← h1]
      revert h3
      simp only []
      rcases computeAll (compute sys st f) ks c' with ⟨_ | l, c''⟩
      · rintro ⟨h3, h4⟩
        simp only [] at h3 h4
        rw [← h3]
        exact ⟨rfl, h4⟩
      · rintro ⟨h3, h4⟩
        simp only [] at h3 h4
        rw [← h3]
        exact ⟨rfl, h4⟩

theorem compute_good {rank : Var → ℕ} (hr : Ranked sys rank) (h7 : ∀ k, rank k ≤ 7) (hco : Coherent sys st E) :
    ∀ f key c, rank key < f → Good sys st E c →
      (¬E key → (compute sys st f key c).1 = evalF sys st 8 key) ∧ Good sys st E (compute sys st f key c).2 := by
  intro f
  induction f with
  | zero => intro key c h; omega
  | succ f ih =>
    intro key c hf hc
    rw [compute]
    cases hk : c key with
    | some v => exact ⟨fun hE => (hc key v hE hk).symm, hc⟩
    | none =>
      simp only []
      cases hrule : sys.rules key with
      | none => exact ⟨fun _ => by rw [evalF, hrule], hc⟩
      | some r =>
        have hdeps : ∀ d ∈ r.deps, rank d < rank key := hr key r hrule
        have h1 := computeAll_good ih r.deps c (by omega) hdeps (hco.2 key r hrule) hc
        have e7 : r.deps.mapM (evalF sys st 8) = r.deps.mapM (evalF sys st 7) := by
          refine mapM_congr fun d hd => ?_
          have := hdeps d hd
          have := h7 key
          rw [evalF_stable hr 8 d (by omega), evalF_stable hr 7 d (by omega)]
        rw [e7] at h1
        have ev : evalF sys st 8 key = (match r.deps.mapM (evalF sys st 7) with
            | none => none
            | some l => r.value st l) := by rw [evalF, hrule]; rfl
        rw [ev]
        simp only []
        revert h1
        rcases computeAll (compute sys st f) r.deps c with ⟨_ | l, c'⟩
        · rintro ⟨h1, h2⟩
          simp only [] at h1 h2
          rw [← h1]
          exact ⟨fun _ => rfl, h2⟩
        · rintro ⟨h1, h2⟩
          simp only [] at h1 h2
          rw [← h1] at ev ⊢
          simp only [] at ev ⊢
          cases hv : r.value st l with
          | none => exact ⟨fun _ => rfl, h2⟩
          | some v =>
            refine ⟨fun _ => rfl, ?_⟩
            rw [hv] at ev
            simp only [saveBoth]
            cases ha : r.also with
            | none => exact h2.save fun _ => ev
            | some q =>
              obtain ⟨k2, g⟩ := q
              exact (h2.save fun hE => hco.1 key r k2 g hrule ha hE l h1.symm).save fun _ => ev

theorem getVar_good {rank : Var → ℕ} (hr : Ranked sys rank) (h7 : ∀ k, rank k ≤ 7) (hco : Coherent sys st E)
    {c : Cache V} (hc : Good sys st E c) (key : Var) :
    (¬E key → (getVar sys st key c).1 = value sys st key) ∧ Good sys st E (getVar sys st key c).2 := by
  simp only [getVar, value]
  split_ifs
  · exact ⟨fun _ => rfl, hc⟩
  · exact compute_good hr h7 hco 8 key c (by have := h7 key; omega) hc

theorem reads_good {rank : Var → ℕ} (hr : Ranked sys rank) (h7 : ∀ k, rank k ≤ 7)
    (hco : Coherent sys st fun _ => False) :
    ∀ (keys : List Var) (c : Cache V), Good sys st (fun _ => False) c →
      reads sys st keys c = keys.map (value sys st) := by
  intro keys
  induction keys with
  | nil => intro c _; rfl
  | cons k ks ih =>
    intro c hc
    have h := getVar_good hr h7 hco hc k
    rw [reads, h.1 id, ih _ h.2, List.map_cons]

theorem good_empty : Good sys st E Cache.empty := fun _ _ _ h => by cases h

theorem gives_of_value {rank : Var → ℕ} (hr : Ranked sys rank) (h7 : ∀ k, rank k ≤ 7) (hco : Coherent sys st E)
    {key : Var} (hE : ¬E key) {R : V → Prop} {v : V} (hv : value sys st key = some v) (hR : R v) :
    Gives sys st key R := by
  have main : ∀ (before : List Var) (c : Cache V), Good sys st E c →
      (reads sys st (before ++ [key]) c)[before.length]? = some (some v) := by
    intro before
    induction before with
    | nil =>
      intro c hc
      have h := (getVar_good hr h7 hco hc key).1 hE
      simp [reads, h, hv]
    | cons k ks ih =>
      intro c hc
      have h := (getVar_good hr h7 hco hc k).2
      simpa [reads] using ih _ h
  exact fun before => ⟨v, main before _ good_empty, hR⟩

/-- A rank for all the states of the model. -/
def rank : Var → ℕ
  | .a_fft | .Jx | .Jy | .h | .ap_fft | .am_fft => 0
  | .rot_fft => 3
  | .div_fft => 3
  | .eta_fft => 1
  | .ux_fft => 4
  | .uy_fft => 4
  | .rot => 5
  | .q => 6
  | _ => 5

/-- A rank for the states where the velocity comes first. -/
def rankV : Var → ℕ
  | .ux_fft | .uy_fft | .ap_fft | .am_fft => 0
  | .rot_fft | .div_fft => 1
  | .rot | .div => 2
  | .q => 3
  | .vp_fft | .vt_fft | .chi_fft => 0
  | _ => 4

theorem rank_le (k : Var) : rank k ≤ 7 := by cases k <;> simp [rank]
theorem rankV_le (k : Var) : rankV k ≤ 7 := by cases k <;> simp [rankV]

end Verif.StateVars
