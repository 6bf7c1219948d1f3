import Verif.RunName.Props

/-! # C97: the parameters of the forcings in the names -/

namespace Verif.RunName

open Verif.PhysFiles (Str)

/-- The name says that the parameter `n` is `x` with an error of at most `err`: it has a part made of `n` and of such a number. -/
def Says (name n : Str) (x err : ℚ) : Prop :=
  ∃ pre text post q, name = pre ++ '_' :: (n ++ text ++ '_' :: post) ∧ number text = some q ∧ |q - x| ≤ err

theorem join_append (c : Char) (a b : List Str) (ha : a ≠ []) (hb : b ≠ []) : join c (a ++ b) = join c a ++ c :: join c b := by
  induction a with
  | nil => exact absurd rfl ha
  | cons x a ih =>
    cases a with
    | nil =>
      cases b with
      | nil => exact absurd rfl hb
      | cons y b => rfl
    | cons z a =>
      have := ih (by simp)
      simp only [List.cons_append] at this ⊢
      rw [join, this, join]
      simp

theorem forall2_split {α β : Type*} {R : α → β → Prop} (a b : List α) (l : List β) (h : List.Forall₂ R (a ++ b) l) :
    ∃ l1 l2, l = l1 ++ l2 ∧ List.Forall₂ R a l1 ∧ List.Forall₂ R b l2 := by
  induction a generalizing l with
  | nil => exact ⟨[], l, rfl, .nil, h⟩
  | cons x a ih =>
    cases h with
    | cons h1 h2 =>
      obtain ⟨l1, l2, rfl, h3, h4⟩ := ih _ h2
      exact ⟨_ :: l1, l2, rfl, .cons h1 h3, h4⟩

/-- C97: every number of a name which has a fixed format is said by the name with half a unit of the last digit, provided that something
(the solver) comes before it. -/
theorem C97_says (T : Texts) (m : Maker) (t s n : Str) (x : ℚ) (p : ℕ) (before after : List Key) (hb : before ≠ [])
    (ho : m.ordered = before ++ .param n :: after) (hx : m.parameters.lookup n = some (.float x))
    (hp : (m.formats.lookup n).getD (.fixed 3) = .fixed p) (h : nameRun T m t = .ok s) : Says s n x (1 / 2 / 10 ^ p) := by
  obtain ⟨l, hl, rfl⟩ := nameRun_ok h
  have h1 := mapM_ok hl
  rw [ho] at h1
  obtain ⟨l1, l2, rfl, h2, h3⟩ := forall2_split _ _ _ h1
  cases h3 with
  | @cons _ o _ l3 h4 h5 =>
    have hl1 : l1.map piece ≠ [] := by
      intro h0
      have : l1.length = 0 := by simpa using h0
      exact hb (List.length_eq_zero_iff.1 (by rw [h2.length_eq]; exact this))
    obtain ⟨text, q, e1, e2, e3⟩ := C97_number T p x
    have ho : o = (n, some (clean (.fixed p) text)) := by
      simp only [item, hx, defaultFmt, hp, e1] at h4
      exact (Except.ok.inj h4).symm
    obtain ⟨post, hpost⟩ : ∃ post, join '_' (piece o :: (l3.map piece ++ [t])) = piece o ++ '_' :: post :=
      ⟨_, join_cons _ _ _ (by simp)⟩
    refine ⟨join '_' (l1.map piece), clean (.fixed p) text, post, q, ?_, e2, e3⟩
    rw [List.map_append, List.append_assoc, join_append _ _ _ hl1 (by simp), List.map_cons, List.cons_append, hpost, ho]
    simp [piece]

/-- C97: no word and no parameter of a name is lost when parameters are added, at the end or at given positions, and the new ones are in
the name. -/
theorem C97_kept (m : Maker) (ps : List (Str × Value)) (fs : List (Str × Fmt)) (is : List (Str × ℕ)) :
    (∀ k ∈ m.ordered, k ∈ (m.addParameters ps fs is).ordered) ∧ ∀ q ∈ ps, (m.addParameters ps fs is).Shows q.1 := by
  simp only [Maker.Shows, Maker.addParameters]
  generalize m.ordered = o
  have hins : ∀ i (x k : Key) l, k ∈ insertAt i x l ↔ k = x ∨ k ∈ l := by
    intro i x k l
    simp only [insertAt, List.mem_append, List.mem_cons]
    conv_rhs => rw [← List.take_append_drop i l, List.mem_append]
    tauto
  induction ps generalizing o with
  | nil => exact ⟨fun k hk => hk, fun q hq => by cases hq⟩
  | cons p ps ih =>
    have step : ∀ k, k ∈ (match is.lookup p.1 with
      | some i => insertAt i (Key.param p.1) o
      | none => o ++ [Key.param p.1]) ↔ k = Key.param p.1 ∨ k ∈ o := by
      intro k
      split
      · exact hins _ _ _ _
      · rw [List.mem_append, List.mem_singleton, or_comm]
    obtain ⟨h1, h2⟩ := ih (match is.lookup p.1 with
      | some i => insertAt i (Key.param p.1) o
      | none => o ++ [Key.param p.1])
    refine ⟨fun k hk => h1 k ((step k).2 (.inr hk)), fun q hq => ?_⟩
    rcases List.mem_cons.1 hq with rfl | hq
    · exact h1 _ ((step _).2 (.inl rfl))
    · exact h2 q hq

/-- C97: the name of a run forced by the movements of objects gives the length of the period with 2 digits, the speed and the diameter
with 3. -/
theorem C97_milestone (T : Texts) (m : Maker) (hm : m.ordered ≠ []) (hf : m.formats = []) (l u d : ℚ) (t s : Str)
    (h : nameRun T (milestone (.float l) (.float u) (.float d) m) t = .ok s) :
    Says s "Lf".toList l (1 / 2 / 10 ^ 2) ∧ Says s "U".toList u (1 / 2 / 10 ^ 3) ∧ Says s "D".toList d (1 / 2 / 10 ^ 3) := by
  have ho : (milestone (.float l) (.float u) (.float d) m).ordered
      = m.ordered ++ [.param "Lf".toList, .param "U".toList, .param "D".toList] := by
    simp [milestone, Maker.addParameters]
  have hp : (milestone (.float l) (.float u) (.float d) m).parameters
      = ("D".toList, .float d) :: ("U".toList, .float u) :: ("Lf".toList, .float l) :: m.parameters := rfl
  have hF : (milestone (.float l) (.float u) (.float d) m).formats = [("Lf".toList, .fixed 2)] := by
    simp [milestone, Maker.addParameters, hf]
  refine ⟨C97_says T _ t s _ l 2 m.ordered [.param "U".toList, .param "D".toList] hm ho ?_ ?_ h,
    C97_says T _ t s _ u 3 (m.ordered ++ [.param "Lf".toList]) [.param "D".toList] (by simp) (by rw [ho]; simp) ?_ ?_ h,
    C97_says T _ t s _ d 3 (m.ordered ++ [.param "Lf".toList, .param "U".toList]) [] (by simp) (by rw [ho]; simp) ?_ ?_ h⟩ <;>
    first | (rw [hp]; rfl) | (rw [hF]; rfl)

/-- C97: the name of a run forced by the wave makers gives their amplitude and frequency. -/
theorem C97_watu (T : Texts) (m : Maker) (hm : m.ordered ≠ []) (hf : m.formats = []) (a w : ℚ) (t s : Str)
    (h : nameRun T (watu (.float a) (.float w) m) t = .ok s) :
    Says s "ampl".toList a (1 / 2 / 10 ^ 3) ∧ Says s "omegaf".toList w (1 / 2 / 10 ^ 3) := by
  have ho : (watu (.float a) (.float w) m).ordered = m.ordered ++ [.param "ampl".toList, .param "omegaf".toList] := by
    simp [watu, Maker.addParameters]
  have hp : (watu (.float a) (.float w) m).parameters = ("omegaf".toList, .float w) :: ("ampl".toList, .float a) :: m.parameters := rfl
  have hF : (watu (.float a) (.float w) m).formats = [] := by simp [watu, Maker.addParameters, hf]
  refine ⟨C97_says T _ t s _ a 3 m.ordered [.param "omegaf".toList] hm ho ?_ ?_ h,
    C97_says T _ t s _ w 3 (m.ordered ++ [.param "ampl".toList]) [] (by simp) (by rw [ho]; simp) ?_ ?_ h⟩ <;>
    first | (rw [hp]; rfl) | (rw [hF]; rfl)

/-- C97: the name of a run with the Taylor-Green force gives its amplitude and, with a viscosity, the Reynolds number. -/
theorem C97_taylor_green (T : Texts) (m : Maker) (hm : m.ordered ≠ []) (hf : m.formats = []) (a : ℚ) (re : Option ℚ) (t s : Str)
    (h : nameRun T (taylorGreen (.float a) (re.map .float) m) t = .ok s) :
    Says s "ampl".toList a (1 / 2 / 10 ^ 3) ∧ ∀ r ∈ re, Says s "Re".toList r (1 / 2 / 10 ^ 3) := by
  have hF : (taylorGreen (.float a) (re.map .float) m).formats = [] := by simp [taylorGreen, Maker.addParameters, hf]
  cases re with
  | none =>
    have ho : (taylorGreen (.float a) none m).ordered = m.ordered ++ [.param "ampl".toList] := by
      simp [taylorGreen, Maker.addParameters]
    refine ⟨C97_says T _ t s _ a 3 m.ordered [] hm ho rfl ?_ h, by simp⟩
    exact (by rw [Option.map_none] at hF; rw [hF]; rfl)
  | some r =>
    have ho : (taylorGreen (.float a) (some (.float r)) m).ordered = m.ordered ++ [.param "ampl".toList, .param "Re".toList] := by
      simp [taylorGreen, Maker.addParameters]
    have hp : (taylorGreen (.float a) (some (.float r)) m).parameters = ("Re".toList, .float r) :: ("ampl".toList, .float a) :: m.parameters := rfl
    simp only [Option.map_some] at hF h
    refine ⟨C97_says T _ t s _ a 3 m.ordered [.param "Re".toList] hm ho ?_ ?_ h, fun r' hr => ?_⟩
    · rw [hp]; rfl
    · rw [hF]; rfl
    · cases hr
      refine C97_says T _ t s _ r 3 (m.ordered ++ [.param "ampl".toList]) [] (by simp) (by rw [ho]; simp) ?_ ?_ h
      · rw [hp]; rfl
      · rw [hF]; rfl

/-- The hypotheses are met: the name of a run of ns3d with the wave makers. -/
example : let m := simMaker "ns3d".toList [] "48x48x12".toList id id
    m.ordered ≠ [] ∧ m.formats = [] ∧
      nameRun exTexts (watu (.float (1 / 4)) (.float (3 / 2)) m) "2026-11-17_20-32-37".toList
        = .ok "ns3d_48x48x12_ampl0.25_omegaf1.5_2026-11-17_20-32-37".toList := by
  decide +kernel

end Verif.RunName
