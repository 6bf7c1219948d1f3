import Verif.PhysFiles.Spec
import Mathlib.Tactic.Linarith
import Mathlib.Tactic.Ring
import Mathlib.Tactic.NormNum
import Mathlib.Tactic.IntervalCases
import Mathlib.Tactic.FieldSimp
import Mathlib.Data.List.TakeDrop
import Mathlib.Data.List.Induction
import Mathlib.Data.Nat.Log

set_option linter.unusedSectionVars false

namespace Verif.PhysFiles

/-! ### digits -/

theorem isDig_dig (d : ℕ) (h : d < 10) : isDig (dig d) = true := by
  interval_cases d <;> decide

theorem toNat_dig (d : ℕ) (h : d < 10) : (dig d).toNat - 48 = d := by
  interval_cases d <;> decide

theorem isDig_bounds {c : Char} (h : isDig c = true) : 48 ≤ c.toNat ∧ c.toNat ≤ 57 := by
  simp only [isDig, Bool.and_eq_true, decide_eq_true_eq] at h
  exact ⟨h.1, h.2⟩

theorem char_ext_of_digits {c c' : Char} (h : isDig c = true) (h' : isDig c' = true)
    (he : c.toNat - 48 = c'.toNat - 48) : c = c' := by
  have b := isDig_bounds h
  have b' := isDig_bounds h'
  have : c.toNat = c'.toNat := by omega
  exact Char.ext (UInt32.toNat_inj.1 this)

theorem isDig_ne_dot {c : Char} (h : isDig c = true) : c ≠ '.' := by
  rintro rfl; revert h; decide

theorem isDig_ne_us {c : Char} (h : isDig c = true) : c ≠ '_' := by
  rintro rfl; revert h; decide

theorem digitsVal_snoc (s : Str) (c : Char) :
    digitsVal (s ++ [c]) = 10 * digitsVal s + (c.toNat - 48) := by
  simp [digitsVal, List.foldl_append]

theorem digitsVal_foldl (s : Str) (a : ℕ) :
    s.foldl (fun a c => 10 * a + (c.toNat - 48)) a = a * 10 ^ s.length + digitsVal s := by
  induction s generalizing a with
  | nil => simp [digitsVal]
  | cons c s ih =>
    simp only [List.foldl_cons, List.length_cons, digitsVal]
    rw [ih, ih (10 * 0 + (c.toNat - 48))]
    ring

theorem digitsVal_cons (c : Char) (s : Str) :
    digitsVal (c :: s) = (c.toNat - 48) * 10 ^ s.length + digitsVal s := by
  have := digitsVal_foldl s (10 * 0 + (c.toNat - 48))
  simp only [digitsVal, List.foldl_cons]
  simp only [digitsVal] at this
  rw [this]; simp

theorem digitsVal_lt (s : Str) (h : ∀ c ∈ s, isDig c = true) : digitsVal s < 10 ^ s.length := by
  induction s with
  | nil => simp [digitsVal]
  | cons c s ih =>
    have hc := isDig_bounds (h c (by simp))
    have hs := ih fun x hx => h x (by simp [hx])
    rw [digitsVal_cons, List.length_cons, pow_succ]
    have : (c.toNat - 48) ≤ 9 := by omega
    nlinarith

theorem digs_ext {s s' : Str} (h : ∀ c ∈ s, isDig c = true) (h' : ∀ c ∈ s', isDig c = true)
    (hl : s.length = s'.length) (hv : digitsVal s = digitsVal s') : s = s' := by
  induction s generalizing s' with
  | nil => simp at hl; exact (List.eq_nil_of_length_eq_zero hl.symm).symm
  | cons c s ih =>
    cases s' with
    | nil => simp at hl
    | cons c' s' =>
      have hl' : s.length = s'.length := by simpa using hl
      rw [digitsVal_cons, digitsVal_cons, hl'] at hv
      have b := digitsVal_lt s fun x hx => h x (by simp [hx])
      have b' := digitsVal_lt s' fun x hx => h' x (by simp [hx])
      rw [hl'] at b
      have hP : 0 < 10 ^ s'.length := by positivity
      have hc : c.toNat - 48 = c'.toNat - 48 := by
        have e1 := Nat.div_add_mod ((c.toNat - 48) * 10 ^ s'.length + digitsVal s) (10 ^ s'.length)
        have h1 : ((c.toNat - 48) * 10 ^ s'.length + digitsVal s) / 10 ^ s'.length = c.toNat - 48 := by
          rw [Nat.mul_comm, Nat.mul_add_div hP, Nat.div_eq_of_lt b, Nat.add_zero]
        have h2 : ((c'.toNat - 48) * 10 ^ s'.length + digitsVal s') / 10 ^ s'.length
            = c'.toNat - 48 := by
          rw [Nat.mul_comm, Nat.mul_add_div hP, Nat.div_eq_of_lt b', Nat.add_zero]
        rw [← h1, hv, h2]
      have hcc := char_ext_of_digits (h c (by simp)) (h' c' (by simp)) hc
      subst hcc
      have : digitsVal s = digitsVal s' := by omega
      rw [ih (fun x hx => h x (by simp [hx])) (fun x hx => h' x (by simp [hx])) hl' this]

theorem lex_of_val {s s' : Str} (h : ∀ c ∈ s, isDig c = true) (h' : ∀ c ∈ s', isDig c = true)
    (hl : s.length = s'.length) (hv : digitsVal s < digitsVal s') (x y : Str) :
    NameLt (s ++ x) (s' ++ y) := by
  induction s generalizing s' with
  | nil =>
    have : s' = [] := List.eq_nil_of_length_eq_zero (by simpa using hl.symm)
    subst this
    exact absurd hv (lt_irrefl _)
  | cons c s ih =>
    cases s' with
    | nil => simp at hl
    | cons c' s' =>
      have hl' : s.length = s'.length := by simpa using hl
      rw [digitsVal_cons, digitsVal_cons, hl'] at hv
      have b := digitsVal_lt s fun x hx => h x (by simp [hx])
      have b' := digitsVal_lt s' fun x hx => h' x (by simp [hx])
      rw [hl'] at b
      rcases Nat.lt_trichotomy (c.toNat - 48) (c'.toNat - 48) with hc | hc | hc
      · refine List.Lex.rel ?_
        show c.toNat < c'.toNat
        omega
      · have hcc := char_ext_of_digits (h c (by simp)) (h' c' (by simp)) hc
        subst hcc
        refine List.Lex.cons ?_
        exact ih (fun x hx => h x (by simp [hx])) (fun x hx => h' x (by simp [hx])) hl' (by omega)
      · exfalso
        have h3 : (c'.toNat - 48 + 1) * 10 ^ s'.length ≤ (c.toNat - 48) * 10 ^ s'.length :=
          Nat.mul_le_mul_right _ hc
        have h4 : (c'.toNat - 48 + 1) * 10 ^ s'.length
            = (c'.toNat - 48) * 10 ^ s'.length + 10 ^ s'.length := by ring
        omega

theorem digsAux_spec (fuel n : ℕ) (h : n ≤ fuel) :
    (∀ c ∈ digsAux fuel n, isDig c = true) ∧ digsAux fuel n ≠ [] ∧
      digitsVal (digsAux fuel n) = n ∧
      ∀ L, 1 ≤ L → n < 10 ^ L → (digsAux fuel n).length ≤ L := by
  induction fuel generalizing n with
  | zero =>
    have : n = 0 := by omega
    subst this
    refine ⟨?_, by simp [digsAux], by decide, fun L hL _ => by simpa [digsAux] using hL⟩
    simp only [digsAux, List.mem_singleton]
    rintro c rfl; decide
  | succ fuel ih =>
    by_cases h10 : n < 10
    · simp only [digsAux, h10, if_true]
      refine ⟨?_, by simp, ?_, fun L hL _ => by simpa using hL⟩
      · simp only [List.mem_singleton]; rintro c rfl; exact isDig_dig n h10
      · have := toNat_dig n h10
        simp [digitsVal, this]
    · simp only [digsAux, h10, if_false]
      obtain ⟨i1, i2, i3, i4⟩ := ih (n / 10) (by omega)
      refine ⟨?_, by simp, ?_, fun L hL hn => ?_⟩
      · intro c hc
        rcases List.mem_append.1 hc with hc | hc
        · exact i1 c hc
        · simp only [List.mem_singleton] at hc
          subst hc; exact isDig_dig _ (by omega)
      · rw [digitsVal_snoc, i3, toNat_dig _ (by omega)]; omega
      · cases L with
        | zero => omega
        | succ L =>
          cases L with
          | zero => simp at hn; omega
          | succ L =>
            have : n / 10 < 10 ^ (L + 1) := by
              rw [pow_succ] at hn; omega
            have := i4 (L + 1) (by omega) this
            simp; omega

theorem digs_isDig (n : ℕ) : ∀ c ∈ digs n, isDig c = true := (digsAux_spec n n le_rfl).1
theorem digs_ne_nil (n : ℕ) : digs n ≠ [] := (digsAux_spec n n le_rfl).2.1
theorem digitsVal_digs (n : ℕ) : digitsVal (digs n) = n := (digsAux_spec n n le_rfl).2.2.1
theorem digs_length (n L : ℕ) (hL : 1 ≤ L) (h : n < 10 ^ L) : (digs n).length ≤ L :=
  (digsAux_spec n n le_rfl).2.2.2 L hL h

theorem digs_inj {a b : ℕ} (h : digs a = digs b) : a = b := by
  rw [← digitsVal_digs a, h, digitsVal_digs]

theorem fixed_spec (l n : ℕ) : (∀ c ∈ fixed l n, isDig c = true) ∧ (fixed l n).length = l ∧
    digitsVal (fixed l n) = n % 10 ^ l := by
  induction l generalizing n with
  | zero => simp [fixed, digitsVal, Nat.mod_one]
  | succ l ih =>
    obtain ⟨i1, i2, i3⟩ := ih (n / 10)
    refine ⟨?_, by simp [fixed, i2], ?_⟩
    · intro c hc
      simp only [fixed, List.mem_append, List.mem_singleton] at hc
      rcases hc with hc | rfl
      · exact i1 c hc
      · exact isDig_dig _ (by omega)
    · simp only [fixed]
      rw [digitsVal_snoc, i3, toNat_dig _ (by omega), pow_succ, Nat.mul_comm (10 ^ l) 10,
        Nat.mod_mul]
      omega

theorem digitsVal_zeros (k : ℕ) (s : Str) : digitsVal (List.replicate k '0' ++ s) = digitsVal s := by
  induction k with
  | zero => simp
  | succ k ih =>
    rw [List.replicate_succ, List.cons_append, digitsVal_cons, ih]
    have : ('0' : Char).toNat - 48 = 0 := by decide
    rw [this]; simp

/-- Integer part written by the format. -/
def intPart (w m : ℕ) : Str :=
  List.replicate (w - ((digs (m / 1000)).length + 4)) '0' ++ digs (m / 1000)

theorem fmt_eq (w m : ℕ) : fmt w m = intPart w m ++ '.' :: fixed 3 (m % 1000) := by
  simp [fmt, pad, intPart, (fixed_spec 3 (m % 1000)).2.1]

theorem intPart_isDig (w m : ℕ) : ∀ c ∈ intPart w m, isDig c = true := by
  intro c hc
  rcases List.mem_append.1 hc with hc | hc
  · rw [(List.mem_replicate.1 hc).2]; decide
  · exact digs_isDig _ c hc

theorem intPart_ne_nil (w m : ℕ) : intPart w m ≠ [] := by
  simp [intPart, digs_ne_nil]

theorem digitsVal_intPart (w m : ℕ) : digitsVal (intPart w m) = m / 1000 := by
  rw [intPart, digitsVal_zeros, digitsVal_digs]

theorem intPart_length (w m : ℕ) (hw : 5 ≤ w) (hm : m / 1000 < 10 ^ (w - 4)) :
    (intPart w m).length = w - 4 := by
  have := digs_length (m / 1000) (w - 4) (by omega) hm
  simp [intPart]; omega

theorem fmt_length (w m : ℕ) (hw : 5 ≤ w) (hm : m / 1000 < 10 ^ (w - 4)) :
    (fmt w m).length = w := by
  rw [fmt_eq, List.length_append, intPart_length w m hw hm, List.length_cons,
    (fixed_spec _ _).2.1]
  omega

theorem frac_val (m : ℕ) : digitsVal (fixed 3 (m % 1000)) = m % 1000 := by
  rw [(fixed_spec _ _).2.2]; norm_num

theorem fmt_val (w m : ℕ) {w' m' : ℕ} (h : fmt w m = fmt w' m') : m = m' := by
  rw [fmt_eq, fmt_eq] at h
  have ha : (intPart w m ++ '.' :: fixed 3 (m % 1000)).takeWhile isDig = intPart w m := by
    rw [List.takeWhile_append_of_pos (intPart_isDig w m)]
    simp [show isDig '.' = false by decide]
  have hb : (intPart w' m' ++ '.' :: fixed 3 (m' % 1000)).takeWhile isDig = intPart w' m' := by
    rw [List.takeWhile_append_of_pos (intPart_isDig w' m')]
    simp [show isDig '.' = false by decide]
  have hi : intPart w m = intPart w' m' := by rw [← ha, h, hb]
  rw [hi] at h
  have hf := List.append_cancel_left h
  simp only [List.cons.injEq, true_and] at hf
  have h1 : m / 1000 = m' / 1000 := by rw [← digitsVal_intPart w m, hi, digitsVal_intPart]
  have h2 : m % 1000 = m' % 1000 := by rw [← frac_val m, hf, frac_val]
  omega

theorem fmt_no_us (w m : ℕ) : ∀ c ∈ fmt w m, c ≠ '_' := by
  intro c hc
  rw [fmt_eq] at hc
  rcases List.mem_append.1 hc with hc | hc
  · exact isDig_ne_us (intPart_isDig w m c hc)
  · rcases List.mem_cons.1 hc with rfl | hc
    · decide
    · exact isDig_ne_us ((fixed_spec _ _).1 c hc)

/-- The order of two formatted times of the same width is the order of the times. -/
theorem fmt_lt (w m m' : ℕ) (hw : 5 ≤ w) (hm : m / 1000 < 10 ^ (w - 4))
    (hm' : m' / 1000 < 10 ^ (w - 4)) (h : m < m') (x y : Str) :
    NameLt (fmt w m ++ x) (fmt w m' ++ y) := by
  rw [fmt_eq, fmt_eq, List.append_assoc, List.append_assoc]
  have hl : (intPart w m).length = (intPart w m').length := by
    rw [intPart_length w m hw hm, intPart_length w m' hw hm']
  rcases Nat.lt_or_ge (m / 1000) (m' / 1000) with hlt | hge
  · exact lex_of_val (intPart_isDig w m) (intPart_isDig w m') hl
      (by rw [digitsVal_intPart, digitsVal_intPart]; exact hlt) _ _
  · have heq : m / 1000 = m' / 1000 := by omega
    have hi : intPart w m = intPart w m' := digs_ext (intPart_isDig w m) (intPart_isDig w m') hl
      (by rw [digitsVal_intPart, digitsVal_intPart, heq])
    rw [hi]
    have : NameLt (fixed 3 (m % 1000) ++ x) (fixed 3 (m' % 1000) ++ y) :=
      lex_of_val (fixed_spec _ _).1 (fixed_spec _ _).1
        (by rw [(fixed_spec _ _).2.1, (fixed_spec _ _).2.1])
        (by rw [frac_val, frac_val]; omega) _ _
    generalize intPart w m' = s
    induction s with
    | nil => exact List.Lex.cons this
    | cons c s ih => exact List.Lex.cons ih

theorem nameLt_prefix (p a b : Str) (h : NameLt a b) : NameLt (p ++ a) (p ++ b) := by
  induction p with
  | nil => exact h
  | cons c p ih => exact List.Lex.cons ih

/-! ### parsing -/

theorem search_skip (c : Char) (s : Str) (h : isDig c = false) : search (c :: s) = search s := by
  have : matchHere (c :: s) = none := by
    simp only [matchHere, List.takeWhile_cons, List.dropWhile_cons, h]
    by_cases hc : c = '.'
    · subst hc; simp
    · simp [hc]
  simp [search, this]

/-- What may follow the time in a name: nothing, or the iteration; then the extension. -/
def Tail (it : ℕ) (b : Bool) : Str := (if b then itText it else []) ++ ext

theorem tail_head (it : ℕ) (b : Bool) : ∃ c s, Tail it b = c :: s ∧ isDig c = false := by
  cases b
  · exact ⟨'.', ['n', 'c'], rfl, by decide⟩
  · refine ⟨'_', ['i', 't', '='] ++ digs it ++ ext, ?_, by decide⟩
    simp [Tail, itText]

theorem takeWhile_all {p : Char → Bool} {a : Str} (ha : ∀ c ∈ a, p c = true) :
    a.takeWhile p = a := by
  have := List.takeWhile_append_of_pos (l₂ := []) ha
  simpa using this

theorem takeWhile_append_stop {p : Char → Bool} (a : Str) (ha : ∀ c ∈ a, p c = true) (c : Char)
    (hc : p c = false) (s : Str) : (a ++ c :: s).takeWhile p = a := by
  rw [List.takeWhile_append_of_pos ha]; simp [hc]

theorem dropWhile_append_stop {p : Char → Bool} (a : Str) (ha : ∀ c ∈ a, p c = true) (c : Char)
    (hc : p c = false) (s : Str) : (a ++ c :: s).dropWhile p = c :: s := by
  rw [List.dropWhile_append_of_pos ha]; simp [hc]

theorem search_fmt (w m it : ℕ) (b : Bool) :
    search (fmt w m ++ Tail it b) = some (intPart w m, fixed 3 (m % 1000)) := by
  obtain ⟨c, s, htail, hc⟩ := tail_head it b
  rw [htail, fmt_eq, List.append_assoc, List.cons_append]
  have hm : matchHere (intPart w m ++ '.' :: (fixed 3 (m % 1000) ++ c :: s)) =
      some (intPart w m, fixed 3 (m % 1000)) := by
    simp only [matchHere]
    rw [takeWhile_append_stop _ (intPart_isDig w m) '.' (by decide),
      dropWhile_append_stop _ (intPart_isDig w m) '.' (by decide)]
    simp only
    rw [takeWhile_append_stop _ (fixed_spec _ _).1 c hc]
    have h3 : fixed 3 (m % 1000) ≠ [] := by
      intro h
      have := (fixed_spec 3 (m % 1000)).2.1
      rw [h] at this; simp at this
    simp [intPart_ne_nil, h3]
  obtain ⟨c0, s0, h0⟩ := List.exists_cons_of_ne_nil (intPart_ne_nil w m)
  rw [h0] at hm ⊢
  rw [List.cons_append] at hm ⊢
  simp only [search, hm]

theorem search_name (w m it : ℕ) (b : Bool) :
    search (pre ++ fmt w m ++ Tail it b) = some (intPart w m, fixed 3 (m % 1000)) := by
  rw [List.append_assoc]
  have : pre = ['s', 't', 'a', 't', 'e', '_', 'p', 'h', 'y', 's', '_', 't'] := by decide
  rw [this]
  simp only [List.cons_append, List.nil_append]
  iterate 12 rw [search_skip _ _ (by decide)]
  exact search_fmt w m it b

theorem decVal_fmt {K : Type*} [Field K] [CharZero K] (w m : ℕ) :
    (decVal (intPart w m, fixed 3 (m % 1000)) : K) = (m : K) / 1000 := by
  simp only [decVal]
  rw [digitsVal_intPart, frac_val, (fixed_spec _ _).2.1]
  have h := Nat.div_add_mod m 1000
  have hK : (m : K) = 1000 * ((m / 1000 : ℕ) : K) + ((m % 1000 : ℕ) : K) := by
    exact_mod_cast h.symm
  generalize m / 1000 = a at hK ⊢
  generalize m % 1000 = b at hK ⊢
  rw [hK]
  field_simp
  ring

theorem tail_split (it : ℕ) (b : Bool) : ∃ u, Tail it b = u ++ '.' :: ['n', 'c'] ∧
    (∀ c ∈ u, c ≠ '.') ∧ (u = [] ∨ ∃ v, u = '_' :: v) := by
  cases b
  · exact ⟨[], rfl, by simp, Or.inl rfl⟩
  · refine ⟨itText it, rfl, ?_, Or.inr ⟨['i', 't', '='] ++ digs it, by simp [itText]⟩⟩
    intro c hc
    simp only [itText, List.mem_append] at hc
    rcases hc with hc | hc
    · revert hc; revert c; decide
    · exact isDig_ne_dot (digs_isDig _ c hc)

theorem parseApprox_name {K : Type*} [Field K] [CharZero K] (w m it : ℕ) (b : Bool) :
    (parseApprox (pre ++ fmt w m ++ Tail it b) : K) = (m : K) / 1000 := by
  rw [← decVal_fmt w m]
  obtain ⟨u, hu, hdot, hus⟩ := tail_split it b
  have hd : (pre ++ fmt w m ++ Tail it b).drop 12 =
      intPart w m ++ '.' :: (fixed 3 (m % 1000) ++ u ++ '.' :: ['n', 'c']) := by
    rw [List.append_assoc, List.drop_left' (by decide), fmt_eq, hu]
    simp
  have hA : ∀ c ∈ intPart w m, (fun c : Char => decide (c ≠ '.')) c = true := fun c hc => by
    simpa using isDig_ne_dot (intPart_isDig w m c hc)
  have hF : ∀ c ∈ fixed 3 (m % 1000), (fun c : Char => decide (c ≠ '.')) c = true := fun c hc => by
    simpa using isDig_ne_dot ((fixed_spec _ _).1 c hc)
  have hFu : ∀ c ∈ fixed 3 (m % 1000) ++ u, (fun c : Char => decide (c ≠ '.')) c = true := by
    intro c hc
    rcases List.mem_append.1 hc with hc | hc
    · exact hF c hc
    · simpa using hdot c hc
  have hAF : ∀ c ∈ intPart w m ++ '.' :: fixed 3 (m % 1000),
      (fun c : Char => decide (c ≠ '_')) c = true := by
    intro c hc
    have := fmt_no_us w m c (by rw [fmt_eq]; exact hc)
    simpa using this
  have htmp : ((intPart w m ++ '.' :: (fixed 3 (m % 1000) ++ u)).takeWhile
      (fun c : Char => decide (c ≠ '_'))) = intPart w m ++ '.' :: fixed 3 (m % 1000) := by
    rcases hus with rfl | ⟨v, rfl⟩
    · rw [List.append_nil]
      exact takeWhile_all hAF
    · have := takeWhile_append_stop _ hAF '_' (by decide) v
      simpa using this
  unfold parseApprox
  simp only [hd]
  rw [takeWhile_append_stop _ hA '.' (by decide), dropWhile_append_stop _ hA '.' (by decide)]
  simp only [List.drop_one, List.tail_cons]
  rw [takeWhile_append_stop _ hFu '.' (by decide), htmp,
    takeWhile_append_stop _ hA '.' (by decide), dropWhile_append_stop _ hA '.' (by decide)]
  simp

/-! ### names -/

theorem name_inj {w m it : ℕ} {b : Bool} {w' m' it' : ℕ} {b' : Bool}
    (h : pre ++ fmt w m ++ Tail it b = pre ++ fmt w' m' ++ Tail it' b') :
    fmt w m = fmt w' m' ∧ b = b' ∧ (b = true → it = it') := by
  rw [List.append_assoc, List.append_assoc] at h
  have h1 := List.append_cancel_left h
  simp only [Tail, ← List.append_assoc] at h1
  have h2 : fmt w m ++ (if b then itText it else []) = fmt w' m' ++ (if b' then itText it' else []) :=
    List.append_cancel_right h1
  have key : ∀ (w m it : ℕ) (b : Bool), (fmt w m ++ (if b then itText it else [])).takeWhile
      (fun c => decide (c ≠ '_')) = fmt w m := by
    intro w m it b
    have hno : ∀ c ∈ fmt w m, (fun c : Char => decide (c ≠ '_')) c = true := fun c hc => by
      simpa using fmt_no_us w m c hc
    cases b
    · simpa using takeWhile_all hno
    · have : itText it = '_' :: (['i', 't', '='] ++ digs it) := by simp [itText]
      simp only [if_true, this]
      exact takeWhile_append_stop _ hno '_' (by decide) _
  have h3 : fmt w m = fmt w' m' := by rw [← key w m it b, h2, key]
  rw [h3] at h2
  have h4 := List.append_cancel_left h2
  have hne : ∀ it : ℕ, itText it ≠ [] := fun it => by simp [itText]
  refine ⟨h3, ?_, ?_⟩
  · cases b <;> cases b'
    · rfl
    · exact absurd h4.symm (hne it')
    · exact absurd h4 (hne it)
    · rfl
  · intro hb
    subst hb
    cases b'
    · exact absurd h4 (hne it)
    · simp only [if_true, itText] at h4
      exact digs_inj (List.append_cancel_left h4)

/-- The names that `save` gives. -/
def Named {K : Type*} [Field K] [LinearOrder K] [FloorRing K] (f : File K) : Prop :=
  ∃ w b, f.name = pre ++ fmt w (thousandths f.time) ++ Tail f.it b

variable {K : Type*} [Field K] [LinearOrder K] [FloorRing K]

theorem name1_eq (p : Params) (w m it : ℕ) :
    name1 p w m it = pre ++ fmt w m ++ Tail it p.withIt := by
  simp [name1, Tail]

theorem name2_eq (m it : ℕ) : name2 m it = pre ++ fmt 7 m ++ Tail it true := by
  simp [name2, Tail]

theorem save_cases (p : Params) (probe : Option (File K)) (fs : List (File K)) (t : K) (it : ℕ) :
    (save p probe fs t it = fs ++ [⟨name1 p (strWidth p probe) (thousandths t) it, it, t⟩] ∧
      ∀ g ∈ fs, g.name ≠ name1 p (strWidth p probe) (thousandths t) it) ∨
    (save p probe fs t it = fs ∧ ∃ f ∈ fs,
      f.name = name1 p (strWidth p probe) (thousandths t) it ∧ f.it = it) ∨
    (save p probe fs t it = write fs ⟨name2 (thousandths t) it, it, t⟩ ∧ ∃ f ∈ fs,
      f.name = name1 p (strWidth p probe) (thousandths t) it ∧ f.it ≠ it) := by
  set n1 := name1 p (strWidth p probe) (thousandths t) it with hn1
  have hsave : save p probe fs t it = match fs.find? fun f => f.name = n1 with
    | none => write fs ⟨n1, it, t⟩
    | some f => if f.it = it then fs else write fs ⟨name2 (thousandths t) it, it, t⟩ := rfl
  rw [hsave]
  rcases Option.eq_none_or_eq_some (fs.find? fun f => f.name = n1) with hc | ⟨f, hc⟩
  · left
    have hno : ∀ g ∈ fs, g.name ≠ n1 := by
      intro g hg
      have := List.find?_eq_none.1 hc g hg
      simpa using this
    simp only [hc]
    refine ⟨?_, hno⟩
    simp only [write]
    rw [List.filter_eq_self.2 (fun g hg => by simpa using hno g hg)]
  · right
    have hf : f ∈ fs := List.mem_of_find?_eq_some hc
    have hfn : f.name = n1 := by simpa using List.find?_some hc
    simp only [hc]
    by_cases hit : f.it = it
    · left; simp only [hit, if_true]; exact ⟨trivial, f, hf, hfn, hit⟩
    · right; simp only [hit, if_false]; exact ⟨trivial, f, hf, hfn, hit⟩

theorem named_save (p : Params) (probe : Option (File K)) (fs : List (File K)) (t : K) (it : ℕ)
    (h : ∀ f ∈ fs, Named f) : ∀ f ∈ save p probe fs t it, Named f := by
  intro f hf
  rcases save_cases p probe fs t it with ⟨hs, _⟩ | ⟨hs, _⟩ | ⟨hs, _⟩
  · rw [hs] at hf
    rcases List.mem_append.1 hf with hf | hf
    · exact h f hf
    · simp only [List.mem_singleton] at hf
      subst hf
      exact ⟨_, _, name1_eq _ _ _ _⟩
  · rw [hs] at hf; exact h f hf
  · rw [hs] at hf
    simp only [write, List.mem_append, List.mem_filter, List.mem_singleton] at hf
    rcases hf with hf | hf
    · exact h f hf.1
    · subst hf
      exact ⟨_, _, name2_eq _ _⟩

theorem reach_named {p : Params} {fs : List (File K)} (h : Reach p fs) : ∀ f ∈ fs, Named f := by
  induction h with
  | empty => simp
  | save probe t it _ _ _ ih => exact named_save p probe _ t it ih

/-! ### runs -/

/-- One save after the other; `pick` chooses the file seen by `glob`. -/
def runSaves (p : Params) (pick : List (File K) → Option (File K)) (saves : List (K × ℕ)) :
    List (File K) :=
  saves.foldl (fun fs s => save p (pick fs) fs s.1 s.2) []

/-- `pick` returns a file of the directory if there is one. -/
def PickOk (pick : List (File K) → Option (File K)) : Prop :=
  ∀ fs, (∀ f, pick fs = some f → f ∈ fs) ∧ (pick fs = none → fs = [])

/-- The width expected for all the files of a run. -/
def width (p : Params) : ℕ := if p.useTEnd then Nat.log 10 p.tEnd + 7 else 7

theorem width_ge (p : Params) : 5 ≤ width p := by
  unfold width; split_ifs <;> omega

theorem run_spec (p : Params) (hI : p.withIt = false) (pick : List (File K) → Option (File K))
    (hp : PickOk pick) (saves : List (K × ℕ))
    (hinc : saves.Pairwise fun a b => thousandths a.1 < thousandths b.1)
    (hlt : ∀ s ∈ saves, thousandths s.1 / 1000 < 10 ^ (width p - 4)) :
    runSaves p pick saves =
      saves.map fun s => ⟨pre ++ fmt (width p) (thousandths s.1) ++ Tail s.2 false, s.2, s.1⟩ := by
  induction saves using List.reverseRecOn with
  | nil => rfl
  | append_singleton l x ih =>
    have hl := ih (List.pairwise_append.1 hinc).1 fun s hs => hlt s (by simp [hs])
    have hcross := (List.pairwise_append.1 hinc).2.2
    simp only [runSaves, List.foldl_append, List.foldl_cons, List.foldl_nil] at hl ⊢
    rw [hl]
    generalize hfs : (l.map fun s : K × ℕ => (⟨pre ++ fmt (width p) (thousandths s.1) ++
      Tail s.2 false, s.2, s.1⟩ : File K)) = fs
    have hW : strWidth p (pick fs) = width p := by
      unfold strWidth
      by_cases hu : p.useTEnd
      · simp only [hu, if_true]
        rcases Option.eq_none_or_eq_some (pick fs) with hc | ⟨f, hc⟩
        · simp [hc, width, hu]
        · simp only [hc]
          have hf := (hp fs).1 f hc
          rw [← hfs] at hf
          obtain ⟨s, hs, rfl⟩ := List.mem_map.1 hf
          have hlen := fmt_length (width p) (thousandths s.1) (width_ge p) (hlt s (by simp [hs]))
          have h1 : pre.length = 12 := by decide
          have h2 : (Tail s.2 false).length = 3 := by simp [Tail, ext]
          simp only [List.length_append, hlen, h1, h2]
          omega
      · simp [width, hu]
    rcases save_cases p (pick fs) fs x.1 x.2 with ⟨hs, _⟩ | ⟨_, f, hf, hfn, _⟩ | ⟨_, f, hf, hfn, _⟩
    · rw [hs, List.map_append, hfs, name1_eq, hW, hI]
      rfl
    all_goals
      exfalso
      rw [← hfs] at hf
      obtain ⟨s, hs, rfl⟩ := List.mem_map.1 hf
      rw [name1_eq, hI] at hfn
      have := fmt_val _ _ (name_inj hfn).1
      have hlt' := hcross s hs x (by simp)
      omega

theorem thousandths_step [IsStrictOrderedRing K] {a b : K} (ha : 0 ≤ a) (h : a + 1 / 1000 ≤ b) :
    thousandths a < thousandths b := by
  unfold thousandths
  have h1 : ⌊1000 * a + 1 / 2⌋ + 1 ≤ ⌊1000 * b + 1 / 2⌋ := by
    rw [Int.le_floor]
    push_cast
    have := Int.floor_le (1000 * a + 1 / 2)
    linarith
  have h0 : 0 ≤ ⌊1000 * a + 1 / 2⌋ := Int.floor_nonneg.2 (by linarith)
  omega

theorem thousandths_bound [IsStrictOrderedRing K] {t : K} {n : ℕ} (h : t ≤ n) :
    thousandths t / 1000 ≤ n := by
  unfold thousandths
  have : ⌊1000 * t + 1 / 2⌋ < 1000 * (n : ℤ) + 1 := by
    rw [Int.floor_lt]
    push_cast
    linarith
  omega

theorem thousandths_near [IsStrictOrderedRing K] {t : K} (h : 0 ≤ t) :
    |(thousandths t : K) / 1000 - t| ≤ 1 / 2000 := by
  have h0 : 0 ≤ ⌊1000 * t + 1 / 2⌋ := Int.floor_nonneg.2 (by linarith)
  have hc : (thousandths t : K) = (⌊1000 * t + 1 / 2⌋ : ℤ) := by
    unfold thousandths
    have : ((⌊1000 * t + 1 / 2⌋.toNat : ℕ) : ℤ) = ⌊1000 * t + 1 / 2⌋ := Int.toNat_of_nonneg h0
    exact_mod_cast congrArg (fun z : ℤ => (z : K)) this
  rw [hc, abs_le]
  have h1 := Int.floor_le (1000 * t + 1 / 2)
  have h2 := Int.lt_floor_add_one (1000 * t + 1 / 2)
  constructor
  · rw [le_sub_iff_add_le, le_div_iff₀ (by norm_num)]; linarith
  · rw [sub_le_iff_le_add, div_le_iff₀ (by norm_num)]; linarith

/-! ### argmin -/

theorem argmin_spec {A : Type*} [LinearOrder A] (l : List A) (h : l ≠ []) :
    ∃ x, l[argmin l]? = some x ∧ (∀ y ∈ l, x ≤ y) ∧
      ∀ (j : ℕ) (y : A), j < argmin l → l[j]? = some y → x < y := by
  induction l with
  | nil => exact absurd rfl h
  | cons a l ih =>
    cases l with
    | nil => exact ⟨a, by simp [argmin], by simp, fun j y hj => by simp [argmin] at hj⟩
    | cons b l =>
      obtain ⟨x, h1, h2, h3⟩ := ih (by simp)
      have hdef : argmin (a :: b :: l) = if a ≤ x then 0 else argmin (b :: l) + 1 := by
        rw [argmin]; simp only [h1]
      by_cases hax : a ≤ x
      · refine ⟨a, by simp [hdef, hax], ?_, fun j y hj => by simp [hdef, hax] at hj⟩
        intro y hy
        rcases List.mem_cons.1 hy with rfl | hy
        · exact le_rfl
        · exact hax.trans (h2 y hy)
      · refine ⟨x, by simp [hdef, hax, h1], ?_, ?_⟩
        · intro y hy
          rcases List.mem_cons.1 hy with rfl | hy
          · exact (not_le.1 hax).le
          · exact h2 y hy
        · intro j y hj hy
          rw [hdef, if_neg hax] at hj
          cases j with
          | zero => simp at hy; subst hy; exact not_le.1 hax
          | succ j => exact h3 j y (by omega) (by simpa using hy)

theorem closest_spec (times : List K) (t : K) (h : times ≠ []) :
    ∃ x, times[closest times t]? = some x ∧ (∀ y ∈ times, |x - t| ≤ |y - t|) ∧
      ∀ (j : ℕ) (y : K), j < closest times t → times[j]? = some y → |x - t| < |y - t| := by
  obtain ⟨d, h1, h2, h3⟩ := argmin_spec (times.map fun x => |x - t|) (by simpa using h)
  rw [List.getElem?_map, Option.map_eq_some_iff] at h1
  obtain ⟨x, hx, rfl⟩ := h1
  refine ⟨x, hx, fun y hy => h2 _ (List.mem_map_of_mem hy), fun j y hj hy => ?_⟩
  exact h3 j _ hj (by rw [List.getElem?_map, hy]; rfl)

end Verif.PhysFiles
