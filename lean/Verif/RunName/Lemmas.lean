import Verif.RunName.Spec
import Verif.StdOut.Lemmas
import Mathlib.Tactic

set_option linter.unusedSectionVars false

namespace Verif.RunName

open Verif.PhysFiles (Str digs fixed digitsVal isDig digs_isDig digs_ne_nil digitsVal_digs fixed_spec isDig_bounds)
open Verif.StdOut (splitChar splitChar_nil splitChar_append)

theorem roundEven_err {x : ℚ} (hx : 0 ≤ x) : |(roundEven x : ℚ) - x| ≤ 1 / 2 := by
  have h1 := Nat.floor_le hx
  have h2 := Nat.lt_floor_add_one x
  simp only [roundEven]
  split_ifs <;> rw [abs_le] <;> push_cast <;> constructor <;> linarith

theorem isDig_ne {c : Char} (h : isDig c = true) : c ≠ '.' ∧ c ≠ '-' ∧ c ≠ 'e' ∧ c ≠ '_' := by
  refine ⟨?_, ?_, ?_, ?_⟩ <;> rintro rfl <;> revert h <;> decide

theorem not_mem_digits {s : Str} (h : ∀ c ∈ s, isDig c = true) : '.' ∉ s ∧ '-' ∉ s ∧ 'e' ∉ s ∧ '_' ∉ s :=
  ⟨fun hc => (isDig_ne (h _ hc)).1 rfl, fun hc => (isDig_ne (h _ hc)).2.1 rfl, fun hc => (isDig_ne (h _ hc)).2.2.1 rfl,
    fun hc => (isDig_ne (h _ hc)).2.2.2 rfl⟩

theorem rstrip0_concat (s : Str) (c : Char) : rstrip0 (s ++ [c]) = if c = '0' then rstrip0 s else s ++ [c] := by
  simp only [rstrip0, List.reverse_append, List.reverse_cons, List.reverse_nil, List.nil_append, List.singleton_append, List.dropWhile_cons]
  split_ifs with h h2 h2
  · rfl
  · simp_all
  · simp_all
  · simp

theorem rstrip0_zeros (s : Str) : ∃ k, s = rstrip0 s ++ List.replicate k '0' := by
  induction s using List.reverseRecOn with
  | nil => exact ⟨0, rfl⟩
  | append_singleton s c ih =>
    rw [rstrip0_concat]
    split_ifs with h
    · obtain ⟨k, hk⟩ := ih
      refine ⟨k + 1, ?_⟩
      rw [List.replicate_succ', ← List.append_assoc, ← hk, h]
    · exact ⟨0, by simp⟩

theorem rstrip0_append (a s : Str) (d : Char) (hd : d ≠ '0') : rstrip0 (a ++ d :: s) = a ++ d :: rstrip0 s := by
  induction s using List.reverseRecOn with
  | nil => rw [rstrip0_concat, if_neg hd]; rfl
  | append_singleton s c ih =>
    rw [show a ++ d :: (s ++ [c]) = (a ++ d :: s) ++ [c] by simp, rstrip0_concat, rstrip0_concat, ih]
    split_ifs <;> simp

theorem rstrip0_last (s : Str) : (rstrip0 s).getLast? ≠ some '0' := by
  induction s using List.reverseRecOn with
  | nil => simp [rstrip0]
  | append_singleton s c ih =>
    rw [rstrip0_concat]
    split_ifs with h
    · exact ih
    · simpa using h

theorem digitsVal_append (a b : Str) : digitsVal (a ++ b) = digitsVal a * 10 ^ b.length + digitsVal b := by
  induction b using List.reverseRecOn with
  | nil => simp [digitsVal]
  | append_singleton b c ih =>
    rw [← List.append_assoc]
    simp only [digitsVal, List.foldl_append, List.foldl_cons, List.foldl_nil] at *
    rw [ih]
    simp only [List.length_append, List.length_cons, List.length_nil, pow_succ]
    ring

theorem digitsVal_zeros (k : ℕ) : digitsVal (List.replicate k '0') = 0 := by
  induction k with
  | zero => rfl
  | succ k ih =>
    rw [List.replicate_succ', digitsVal_append, ih]
    rfl

/-- The value of digits without the last zeros. -/
theorem fraction_strip (s : Str) : (digitsVal (rstrip0 s) : ℚ) / 10 ^ (rstrip0 s).length = digitsVal s / 10 ^ s.length := by
  obtain ⟨k, hk⟩ := rstrip0_zeros s
  set r := rstrip0 s
  rw [hk, digitsVal_append, digitsVal_zeros, List.length_append, List.length_replicate, pow_add]
  push_cast
  field_simp
  ring

theorem unsigned_int {a : Str} (h : ∀ c ∈ a, isDig c = true) (hne : a ≠ []) : unsigned a = some (digitsVal a : ℚ) := by
  rw [unsigned, splitChar_nil _ _ (not_mem_digits h).1]
  simp only
  rw [if_pos ⟨hne, List.all_eq_true.2 h⟩]

theorem unsigned_point {a b : Str} (h : ∀ c ∈ a, isDig c = true) (hne : a ≠ []) (hb : ∀ c ∈ b, isDig c = true) :
    unsigned (a ++ '.' :: b) = some ((digitsVal a : ℚ) + digitsVal b / 10 ^ b.length) := by
  rw [unsigned, splitChar_append, splitChar_nil _ _ (not_mem_digits h).1, splitChar_nil _ _ (not_mem_digits hb).1]
  simp only [List.singleton_append]
  rw [if_pos ⟨hne, List.all_eq_true.2 h, List.all_eq_true.2 hb⟩]

theorem number_sign {a : Str} (neg : Prop) [Decidable neg] (h : a.head? ≠ some '-') :
    number ((if neg then ['-'] else []) ++ a) = (unsigned a).map fun q => if neg then -q else q := by
  by_cases hn : neg
  · simp [hn, number]
  · cases a with
    | nil => simp [hn, number]
    | cons c a =>
      simp only [hn, if_false, List.nil_append]
      have hc : c ≠ '-' := by simpa using h
      have : number (c :: a) = unsigned (c :: a) := by
        rw [number.eq_def]
        split
        · rename_i heq; exact absurd (List.cons.inj heq).1 hc
        · rfl
      rw [this]
      cases unsigned (c :: a) <;> rfl

theorem mem_rstrip0 {s : Str} {c : Char} (h : c ∈ rstrip0 s) : c ∈ s := by
  simp only [rstrip0, List.mem_reverse] at h
  exact List.mem_reverse.1 (List.dropWhile_suffix _ |>.subset h)

/-- The text of a number once it is cleaned: without point, or with one and a last digit. -/
theorem clean_fixed (p : ℕ) (sgn a b : Str) (hs : ∀ c ∈ sgn, c = '-') (ha : ∀ c ∈ a, isDig c = true) (hne : a ≠ [])
    (hb : ∀ c ∈ b, isDig c = true) :
    clean (.fixed p) (sgn ++ a) = sgn ++ a ∧
      clean (.fixed p) (sgn ++ a ++ '.' :: b) = sgn ++ a ++ (if rstrip0 b = [] then [] else '.' :: rstrip0 b) := by
  have he : 'e' ∉ sgn ++ a := by
    rw [List.mem_append]; rintro (h | h)
    · exact absurd (hs _ h) (by decide)
    · exact (not_mem_digits ha).2.2.1 h
  have hp : '.' ∉ sgn ++ a := by
    rw [List.mem_append]; rintro (h | h)
    · exact absurd (hs _ h) (by decide)
    · exact (not_mem_digits ha).1 h
  constructor
  · simp only [clean]
    have h2 : ¬ ('e' ∉ sgn ++ a ∧ '.' ∈ sgn ++ a) := fun h => hp h.2
    rw [if_neg h2]
    exact if_neg fun h => hp (List.mem_of_getLast? h)
  · simp only [clean]
    have hcond : 'e' ∉ sgn ++ a ++ '.' :: b ∧ '.' ∈ sgn ++ a ++ '.' :: b := by
      refine ⟨?_, by simp⟩
      rw [List.mem_append, List.mem_cons]
      rintro (h | h | h)
      · exact he h
      · exact absurd h (by decide)
      · exact (not_mem_digits hb).2.2.1 h
    rw [if_pos hcond, rstrip0_append _ _ _ (by decide)]
    split_ifs with h1 h2 h2
    · rw [h2]; simp
    · exfalso
      obtain ⟨y, r, hr⟩ : ∃ y r, rstrip0 b = r ++ [y] := by
        rcases List.eq_nil_or_concat (rstrip0 b) with h | ⟨r, y, h⟩
        · exact absurd h h2
        · exact ⟨y, r, by simpa using h⟩
      rw [hr] at h1
      have hy : y = '.' := by
        rw [show sgn ++ a ++ '.' :: (r ++ [y]) = (sgn ++ a ++ '.' :: r) ++ [y] by simp, List.getLast?_append] at h1
        simpa using h1
      have : y ∈ b := mem_rstrip0 (by rw [hr]; simp)
      exact (isDig_ne (hb _ this)).1 hy
    · rw [h2] at h1; simp at h1
    · rfl

theorem head_digits {a b : Str} (ha : ∀ c ∈ a, isDig c = true) (hne : a ≠ []) : (a ++ b).head? ≠ some '-' := by
  cases a with
  | nil => exact absurd rfl hne
  | cons c a =>
    simp only [List.cons_append, List.head?_cons, ne_eq, Option.some.injEq]
    exact (isDig_ne (ha c (by simp))).2.1

/-- The number which is read in the text of a float. -/
theorem number_fixed (p : ℕ) (x : ℚ) :
    number (clean (.fixed p) (fixedText p x))
      = some (if x < 0 then -(roundEven (|x| * 10 ^ p) / 10 ^ p : ℚ) else roundEven (|x| * 10 ^ p) / 10 ^ p) := by
  set m := roundEven (|x| * 10 ^ p) with hm
  have hsg : ∀ c ∈ (if x < 0 then ['-'] else [] : Str), c = '-' := by
    split_ifs <;> simp
  have hd := digs_isDig (m / 10 ^ p)
  have hn := digs_ne_nil (m / 10 ^ p)
  obtain ⟨f1, f2, f3⟩ := fixed_spec p (m % 10 ^ p)
  have hc := clean_fixed p _ _ _ hsg hd hn f1
  have hstrip : ∀ c ∈ rstrip0 (fixed p (m % 10 ^ p)), isDig c = true := fun c h => f1 c (mem_rstrip0 h)
  have hval : (m : ℚ) / 10 ^ p = (m / 10 ^ p : ℕ) + (m % 10 ^ p : ℕ) / 10 ^ p := by
    have : (m : ℚ) = (10 ^ p * (m / 10 ^ p) + m % 10 ^ p : ℕ) := by rw [Nat.div_add_mod]
    rw [this]
    push_cast
    field_simp
  have hfrac : (digitsVal (rstrip0 (fixed p (m % 10 ^ p))) : ℚ) / 10 ^ (rstrip0 (fixed p (m % 10 ^ p))).length = (m % 10 ^ p : ℕ) / 10 ^ p := by
    rw [fraction_strip, f3, f2, Nat.mod_mod]
  have main : ∃ t : Str, clean (.fixed p) (fixedText p x) = (if x < 0 then ['-'] else []) ++ (digs (m / 10 ^ p) ++ t) ∧
      unsigned (digs (m / 10 ^ p) ++ t) = some ((m : ℚ) / 10 ^ p) := by
    simp only [fixedText, ← hm]
    by_cases hp : p = 0
    · refine ⟨[], ?_, ?_⟩
      · rw [if_pos hp, List.append_nil, hc.1, List.append_nil]
      · rw [List.append_nil, unsigned_int hd hn, digitsVal_digs, hp]
        simp
    · rw [if_neg hp, hc.2, List.append_assoc]
      refine ⟨_, rfl, ?_⟩
      split_ifs with h
      · rw [List.append_nil, unsigned_int hd hn, digitsVal_digs, hval]
        rw [h] at hfrac
        rw [← hfrac]
        simp [digitsVal]
      · rw [unsigned_point hd hn hstrip, digitsVal_digs, hfrac, hval]
  obtain ⟨t, h1, h2⟩ := main
  rw [h1, number_sign _ (head_digits hd hn), h2]
  rfl

theorem number_int (z : ℤ) : number (intText z) = some (z : ℚ) := by
  have hd := digs_isDig z.natAbs
  have hn := digs_ne_nil z.natAbs
  rw [intText, number_sign _ (by simpa using head_digits (b := []) hd hn), unsigned_int hd hn, digitsVal_digs]
  simp only [Option.map_some, Option.some.injEq]
  split_ifs with h
  · have : (z.natAbs : ℤ) = -z := by omega
    have h' : ((z.natAbs : ℤ) : ℚ) = ((-z : ℤ) : ℚ) := by rw [this]
    rw [Int.cast_natCast] at h'
    rw [h']
    push_cast
    ring
  · have : (z.natAbs : ℤ) = z := by omega
    have h' : ((z.natAbs : ℤ) : ℚ) = (z : ℚ) := by rw [this]
    rwa [Int.cast_natCast] at h'

/-! ### Names -/

theorem join_cons (c : Char) (s : Str) (l : List Str) (h : l ≠ []) : join c (s :: l) = s ++ c :: join c l := by
  cases l with
  | nil => exact absurd rfl h
  | cons t l => rfl

theorem join_concat (c : Char) (l : List Str) (s : Str) (h : l ≠ []) : join c (l ++ [s]) = join c l ++ c :: s := by
  induction l with
  | nil => exact absurd rfl h
  | cons a l ih =>
    cases l with
    | nil => rfl
    | cons b l =>
      rw [List.cons_append, join_cons _ _ _ (by simp), ih (by simp), join_cons _ a (b :: l) (by simp)]
      simp

/-- Two lists of pieces of the same lengths. -/
theorem join_inj (c : Char) {l l' : List Str} (h : List.Forall₂ (fun a b : Str => a.length = b.length) l l') (e : join c l = join c l') : l = l' := by
  induction h with
  | nil => rfl
  | @cons a b l l' hab hl ih =>
    cases hl with
    | nil => simpa [join] using e
    | @cons a2 b2 l2 l2' h2 hl2 =>
      rw [join_cons _ a (a2 :: l2) (by simp), join_cons _ b (b2 :: l2') (by simp)] at e
      obtain ⟨e1, e2⟩ := List.append_inj e hab
      rw [e1, ih (List.cons.inj e2).2]

theorem join_length_le (c : Char) {l l' : List Str} (h : List.Forall₂ (fun a b : Str => a.length ≤ b.length) l l') :
    (join c l).length ≤ (join c l').length := by
  induction h with
  | nil => rfl
  | @cons a b l l' hab hl ih =>
    cases hl with
    | nil => simpa [join] using hab
    | @cons a2 b2 l2 l2' h2 hl2 =>
      rw [join_cons _ a (a2 :: l2) (by simp), join_cons _ b (b2 :: l2') (by simp)]
      simp only [List.length_append, List.length_cons]
      omega

theorem join_length_lt (c : Char) {l l' : List Str} (h : List.Forall₂ (fun a b : Str => a.length ≤ b.length) l l')
    (hl : ∃ i : ℕ, ∃ a b : Str, l[i]? = some a ∧ l'[i]? = some b ∧ a.length < b.length) : (join c l).length < (join c l').length := by
  induction h with
  | nil => obtain ⟨i, a, b, h, -⟩ := hl; simp at h
  | @cons a b l l' hab hll ih =>
    obtain ⟨i, x, y, hx, hy, hxy⟩ := hl
    cases hll with
    | nil =>
      cases i with
      | zero => simp at hx hy; subst hx hy; simpa [join] using hxy
      | succ i => simp at hx
    | @cons a2 b2 l2 l2' h2 hl2 =>
      rw [join_cons _ a (a2 :: l2) (by simp), join_cons _ b (b2 :: l2') (by simp)]
      simp only [List.length_append, List.length_cons]
      cases i with
      | zero =>
        simp at hx hy; subst hx hy
        have := join_length_le c (List.Forall₂.cons h2 hl2)
        omega
      | succ i =>
        have := ih ⟨i, x, y, by simpa using hx, by simpa using hy, hxy⟩
        omega

/-- Lists of pieces which differ only by the text of one parameter. -/
theorem join_differ (c : Char) {l l' : List Str} {n t t' : Str} (h : List.Forall₂ (fun a b : Str => a = b ∨ (a = n ++ t ∧ b = n ++ t')) l l')
    (ht : t ≠ t') (hl : ∃ i : ℕ, l[i]? = some (n ++ t) ∧ l'[i]? = some (n ++ t')) : join c l ≠ join c l' := by
  obtain ⟨i, h1, h2⟩ := hl
  intro e
  rcases lt_trichotomy t.length t'.length with hlt | heq | hlt
  · have := join_length_lt c (h.imp fun a b hab => by rcases hab with rfl | ⟨rfl, rfl⟩ <;> simp <;> omega)
      ⟨i, _, _, h1, h2, by simpa using hlt⟩
    rw [e] at this
    omega
  · have := join_inj c (h.imp fun a b hab => by rcases hab with rfl | ⟨rfl, rfl⟩ <;> simp [heq]) e
    rw [this, h2] at h1
    simp only [Option.some.injEq, List.append_cancel_left_eq] at h1
    exact ht h1.symm
  · have := join_length_lt c (l := l') (l' := l) (h.flip.imp fun a b hab => by
      rcases hab with rfl | ⟨rfl, rfl⟩ <;> simp <;> omega) ⟨i, _, _, h2, h1, by simpa using hlt⟩
    rw [e] at this
    omega

end Verif.RunName
