import Verif.StdOut.Spec
import Verif.MeansFile.PropsTimes

/-! # Lemmas for C66 -/

set_option linter.unusedSectionVars false

namespace Verif.StdOut

open Verif.PhysFiles (Str digs fixed digitsVal isDig digs_isDig digs_ne_nil digitsVal_digs fixed_spec isDig_bounds)
open Verif.MeansFile (splitWs pyLines Num NumOk withEol fieldsText isWs split_append split_word split_pad word
  word_split word_float pyLines_line pyLines_withEol pyLines_split words_fields withEol_last drop_last
  numOk_noEol rounded)

/-! ## Beginnings of lines -/

theorem sw_true (h l : Str) : startsWith h l = true ↔ h <+: l := by
  unfold startsWith; exact List.isPrefixOf_iff_prefix

theorem sw_false (h l : Str) : startsWith h l = false ↔ ¬ h <+: l := by
  rw [← sw_true]; simp

/-- The text `a` cannot be continued in a text starting with `h`. -/
def Apart (h a : Str) : Prop := ¬ h <+: a ∧ ¬ a <+: h

instance (h a : Str) : Decidable (Apart h a) := by unfold Apart; infer_instance

theorem apart_not {h a : Str} (H : Apart h a) (t : Str) : ¬ h <+: a ++ t := by
  intro hc
  rcases List.prefix_or_prefix_of_prefix hc (List.prefix_append a t) with h1 | h1
  · exact H.1 h1
  · exact H.2 h1

theorem apart_sw {h a : Str} (H : Apart h a) (t : Str) : startsWith h (a ++ t) = false :=
  (sw_false _ _).2 (apart_not H t)

/-! ## The lines of the messages -/

section
variable {K : Type*} {nm : Num K} {rd : Str → K → K}

/-- Conditions on the lines of a solver which can be computed. -/
structure LinesOk (S : Solver) : Prop where
  ne : ∀ l ∈ S.lines, l.flds ≠ []
  noEol : ∀ l ∈ S.lines, '\n' ∉ l.trail ∧ ∀ f ∈ l.flds, '\n' ∉ f.label
  trail : ∀ l ∈ S.lines, l.loaded = true → l.trail = []

theorem lines_ok (S : Solver) : LinesOk S := by
  cases S <;> exact ⟨by decide +kernel, by decide +kernel, by decide +kernel⟩

theorem heads_apart (S : Solver) : ∀ l ∈ S.lines, ∀ l' ∈ S.lines, l.loaded = true → l ≠ l' →
    Apart l.head (l'.head ++ [' ']) := by
  cases S <;> decide +kernel

theorem heads_others (S : Solver) : ∀ l ∈ S.lines, l.loaded = true →
    Apart l.head ['\n'] ∧ Apart l.head estimated ∧ Apart l.head untilTHead ∧
      Apart l.head "    compute until it = ".toList ∧ Apart l.head savedHead := by
  cases S <;> decide +kernel

theorem heads_mem (S : Solver) : ∀ l ∈ S.lines, l.loaded = true → ∃ h ∈ S.heads, h.toList = l.head := by
  cases S <;> decide +kernel

theorem lines_nodup (S : Solver) : S.lines.Nodup := by cases S <;> decide +kernel

theorem itLine_mem (S : Solver) : itLine ∈ S.lines := by cases S <;> decide +kernel

theorem text_head (v : Str → K) (l : Line) (h : l.flds ≠ []) :
    ∃ t, Line.text nm v l = (l.head ++ [' ']) ++ t := by
  obtain ⟨t, ht⟩ := Verif.MeansFile.fieldsText_pre (nm := nm) v (l.flds.map fun f => (f.label, f.name)) (by simpa using h)
  refine ⟨t ++ l.trail, ?_⟩
  rw [Line.text, ht]
  simp [Line.head, Function.comp_def]

theorem fieldsText_noEol (h : NumOk nm rd) (v : Str → K) (l : List (Str × Str)) (hl : ∀ f ∈ l, '\n' ∉ f.1) :
    '\n' ∉ fieldsText nm v l := by
  match l with
  | [] => simp [fieldsText]
  | [(c, n)] =>
    have h1 := hl (c, n) (by simp)
    have h2 := numOk_noEol h n (v n)
    simp only [fieldsText, List.mem_append, List.mem_cons, not_or]
    exact ⟨h1, by decide, h2⟩
  | (c, n) :: f :: r =>
    have h1 := hl (c, n) (by simp)
    have h2 := numOk_noEol h n (v n)
    have ih := fieldsText_noEol h v (f :: r) fun x hx => hl x (List.mem_cons_of_mem _ hx)
    simp only [fieldsText, List.mem_append, List.mem_cons, not_or]
    exact ⟨h1, by decide, h2, by decide, ih⟩

theorem text_noEol (h : NumOk nm rd) (S : Solver) (v : Str → K) (l : Line) (hl : l ∈ S.lines) :
    '\n' ∉ Line.text nm v l := by
  have H := (lines_ok S).noEol l hl
  rw [Line.text, List.mem_append, not_or]
  refine ⟨fieldsText_noEol h v _ ?_, H.1⟩
  intro f hf
  obtain ⟨g, hg, rfl⟩ := List.mem_map.1 hf
  exact H.2 g hg

/-! ## Durations -/

theorem dig_not {c : Char} (h : isDig c = true) : isWs c = false ∧ c ≠ '\n' ∧ c ≠ ':' ∧ c ≠ 'y' ∧ c ≠ '=' := by
  have := isDig_bounds h
  refine ⟨?_, ?_, ?_, ?_, ?_⟩
  · by_contra hw
    rw [Bool.not_eq_false] at hw
    simp only [isWs, Bool.or_eq_true, beq_iff_eq] at hw
    rcases hw with ((((rfl | rfl) | rfl) | rfl) | rfl) | rfl <;> revert this <;> decide
  all_goals
    rintro rfl
    revert this
    decide

/-- The part with the hours, minutes and seconds. -/
def hms (s : ℕ) : Str := digs (s / 3600) ++ ':' :: fixed 2 (s / 60 % 60) ++ ':' :: fixed 2 (s % 60)

theorem hms_char (s : ℕ) : ∀ c ∈ hms s, isDig c = true ∨ c = ':' := by
  intro c hc
  simp only [hms, List.mem_append, List.mem_cons] at hc
  rcases hc with (hc | hc | hc) | hc | hc
  · exact Or.inl (digs_isDig _ c hc)
  · exact Or.inr hc
  · exact Or.inl ((fixed_spec _ _).1 c hc)
  · exact Or.inr hc
  · exact Or.inl ((fixed_spec _ _).1 c hc)

theorem hms_ne (s : ℕ) : hms s ≠ [] := by simp [hms]

theorem hms_noWs (s : ℕ) : ∀ c ∈ hms s, isWs c = false := by
  intro c hc
  rcases hms_char s c hc with h | rfl
  · exact (dig_not h).1
  · rfl

theorem durText_eq (n : ℕ) : durText n = (if n / 86400 = 0 then [] else digs (n / 86400) ++
    (if n / 86400 = 1 then " day, ".toList else " days, ".toList)) ++ hms (n % 86400) := by
  unfold durText hms
  simp only [List.append_assoc, List.cons_append]

theorem splitChar_nil (c : Char) (a : Str) (h : c ∉ a) : splitChar c a = [a] := by
  induction a with
  | nil => rfl
  | cons x a ih =>
    have hx : x ≠ c := by rintro rfl; simp at h
    have ha : c ∉ a := fun hm => h (List.mem_cons_of_mem _ hm)
    rw [splitChar, if_neg hx, ih ha]

theorem splitChar_append (c : Char) (a b : Str) : splitChar c (a ++ c :: b) = splitChar c a ++ splitChar c b := by
  induction a with
  | nil => simp [splitChar]
  | cons x a ih =>
    rw [List.cons_append, splitChar, splitChar, ih]
    by_cases hx : x = c
    · simp [hx]
    · rw [if_neg hx, if_neg hx]
      cases hs : splitChar c a with
      | nil =>
        exfalso
        cases a with
        | nil => simp [splitChar] at hs
        | cons y a =>
          rw [splitChar] at hs
          split_ifs at hs
          cases h2 : splitChar c a <;> simp [h2] at hs
      | cons l r => simp

theorem digits_int (s : Str) (h : ∀ c ∈ s, isDig c = true) (hne : s ≠ []) : int? s = .ok (digitsVal s) := by
  have : s.all isDig = true := List.all_eq_true.2 h
  simp [int?, pyInt, hne, this]

theorem hms_read (s : ℕ) : allOk int? (splitChar ':' (hms s)) = .ok [s / 3600, s / 60 % 60, s % 60] := by
  have nc : ∀ a : Str, (∀ c ∈ a, isDig c = true) → ':' ∉ a := fun a ha hm => (dig_not (ha _ hm)).2.2.1 rfl
  have f1 := fixed_spec 2 (s / 60 % 60)
  have f2 := fixed_spec 2 (s % 60)
  have l1 : fixed 2 (s / 60 % 60) ≠ [] := by intro h; have := f1.2.1; simp [h] at this
  have l2 : fixed 2 (s % 60) ≠ [] := by intro h; have := f2.2.1; simp [h] at this
  rw [hms, splitChar_append, splitChar_append, splitChar_nil _ _ (nc _ (digs_isDig _)),
    splitChar_nil _ _ (nc _ f1.1), splitChar_nil _ _ (nc _ f2.1)]
  simp only [List.cons_append, List.nil_append, allOk]
  rw [digits_int _ (digs_isDig _) (digs_ne_nil _), digits_int _ f1.1 l1, digits_int _ f2.1 l2, digitsVal_digs,
    f1.2.2, f2.2.2]
  have e1 : s / 60 % 60 % 10 ^ 2 = s / 60 % 60 := Nat.mod_eq_of_lt (by omega)
  have e2 : s % 60 % 10 ^ 2 = s % 60 := Nat.mod_eq_of_lt (by omega)
  rw [e1, e2]

theorem isInfix_mem {pat : Str} {c : Char} (hc : c ∈ pat) {l : Str} (h : isInfix pat l = true) : c ∈ l := by
  induction l with
  | nil =>
    simp only [isInfix, decide_eq_true_eq] at h
    simp [h] at hc
  | cons x l ih =>
    simp only [isInfix, Bool.or_eq_true, List.isPrefixOf_iff_prefix] at h
    rcases h with h | h
    · exact h.subset hc
    · exact List.mem_cons_of_mem _ (ih h)

theorem isInfix_append (pat : Str) (hp : pat ≠ []) (a b : Str) : isInfix pat (a ++ (pat ++ b)) = true := by
  induction a with
  | nil =>
    cases pat with
    | nil => exact absurd rfl hp
    | cons c p =>
      rw [List.nil_append, List.cons_append, isInfix]
      have : (c :: p).isPrefixOf (c :: (p ++ b)) = true := by
        rw [List.isPrefixOf_iff_prefix, ← List.cons_append]
        exact List.prefix_append _ _
      rw [this, Bool.true_or]
  | cons x a ih =>
    rw [List.cons_append, isInfix, ih, Bool.or_true]

theorem split_eol (a : Str) : splitWs (a ++ ['\n']) = splitWs a := by
  have := split_append a [] '\n' rfl
  rw [this]
  simp [splitWs, Verif.MeansFile.splitAux]

theorem split_sp (a : Str) : splitWs (a ++ [' ']) = splitWs a := by
  have := split_append a [] ' ' rfl
  rw [this]
  simp [splitWs, Verif.MeansFile.splitAux]

/-- The text before the duration, with the space. -/
theorem split_est : splitWs (estimated ++ " =".toList) =
    ["estimated".toList, "remaining".toList, "duration".toList, "=".toList] := by decide +kernel

theorem digs_noWs (n : ℕ) : ∀ c ∈ digs n, isWs c = false := fun c hc => (dig_not (digs_isDig n c hc)).1

theorem sp3 : " = ".toList = " =".toList ++ [' '] := by decide

theorem readDur_ok (n : ℕ) : readDur (durLine (some n) ++ ['\n']) = .ok n := by
  have hsum : 86400 * (n / 86400) + 3600 * (n % 86400 / 3600) + 60 * (n % 86400 / 60 % 60) + n % 86400 % 60 = n := by
    omega
  by_cases hd : n / 86400 = 0
  · have e : durLine (some n) ++ ['\n'] = (estimated ++ " =".toList) ++ ' ' :: (hms (n % 86400) ++ ['\n']) := by
      rw [durLine, durText_eq, if_pos hd, sp3]
      generalize hms (n % 86400) = q
      simp only [List.append_assoc, List.cons_append, List.nil_append]
    have hw : splitWs (durLine (some n) ++ ['\n']) =
        ["estimated".toList, "remaining".toList, "duration".toList, "=".toList, hms (n % 86400)] := by
      rw [e, split_append _ _ ' ' rfl, split_est, split_eol, split_word _ (hms_noWs _) (hms_ne _)]
      simp only [List.cons_append, List.nil_append]
    have hy : isInfix "day".toList (durLine (some n) ++ ['\n']) = false := by
      by_contra hc
      rw [Bool.not_eq_false] at hc
      have := isInfix_mem (c := 'y') (by decide) hc
      rw [e] at this
      simp only [List.mem_append, List.mem_cons] at this
      rcases this with (h | h) | h | h | h | h
      · revert h; decide +kernel
      · revert h; decide +kernel
      · revert h; decide
      · rcases hms_char _ _ h with h | h
        · exact (dig_not h).2.2.2.1 rfl
        · revert h; decide
      · revert h; decide
      · simp at h
    unfold readDur
    simp only
    rw [hy, hw]
    simp only [Bool.false_eq_true, if_false, at?, List.getElem?_cons_succ, List.getElem?_cons_zero]
    rw [hms_read]
    simp only
    rw [hd] at hsum
    rw [hsum]
  · obtain ⟨word, e, hx, hw1, hw2⟩ : ∃ dw : Str, (digs (n / 86400) ++
        (if n / 86400 = 1 then " day, ".toList else " days, ".toList)) ++ hms (n % 86400) =
          digs (n / 86400) ++ ' ' :: (dw ++ ' ' :: hms (n % 86400)) ∧
        (∃ r, dw = "day".toList ++ r) ∧ (∀ c ∈ dw, isWs c = false) ∧ dw ≠ [] := by
      by_cases h1 : n / 86400 = 1
      · refine ⟨"day,".toList, ?_, ⟨",".toList, by decide⟩, by decide, by decide⟩
        rw [if_pos h1]; simp
      · refine ⟨"days,".toList, ?_, ⟨"s,".toList, by decide⟩, by decide, by decide⟩
        rw [if_neg h1]; simp
    have e : durLine (some n) ++ ['\n'] =
        (estimated ++ " =".toList) ++ ' ' :: (digs (n / 86400) ++ ' ' :: (word ++ ' ' :: (hms (n % 86400) ++ ['\n']))) := by
      rw [durLine, durText_eq, if_neg hd, e, sp3]
      generalize hms (n % 86400) = q
      generalize digs (n / 86400) = q'
      simp only [List.append_assoc, List.cons_append, List.nil_append]
    have hw : splitWs (durLine (some n) ++ ['\n']) =
        ["estimated".toList, "remaining".toList, "duration".toList, "=".toList, digs (n / 86400), word, hms (n % 86400)] := by
      rw [e, split_append _ _ ' ' rfl, split_est, split_append _ _ ' ' rfl, split_append _ _ ' ' rfl, split_eol,
        split_word _ (hms_noWs _) (hms_ne _), split_word _ hw1 hw2, split_word _ (digs_noWs _) (digs_ne_nil _)]
      simp only [List.cons_append, List.nil_append]
    have hy : isInfix "day".toList (durLine (some n) ++ ['\n']) = true := by
      obtain ⟨r, rfl⟩ := hx
      have : durLine (some n) ++ ['\n'] = ((estimated ++ " =".toList) ++ ' ' :: (digs (n / 86400) ++ [' '])) ++
          ("day".toList ++ (r ++ ' ' :: (hms (n % 86400) ++ ['\n']))) := by
        rw [e]; simp
      rw [this]
      exact isInfix_append _ (by decide) _ _
    unfold readDur
    simp only
    rw [hy, hw]
    simp only [if_true, at?, List.getElem?_cons_succ, List.getElem?_cons_zero]
    rw [digits_int _ (digs_isDig _) (digs_ne_nil _), digitsVal_digs]
    simp only
    rw [hms_read]
    simp only
    rw [hsum]

theorem durText_noEol (n : ℕ) : '\n' ∉ durText n := by
  rw [durText_eq]
  intro hm
  have hh : '\n' ∉ hms (n % 86400) := by
    intro h
    rcases hms_char _ _ h with h | h
    · exact (dig_not h).2.1 rfl
    · revert h; decide
  rcases List.mem_append.1 hm with h | h
  · split_ifs at h with h1 h2
    · simp at h
    · rcases List.mem_append.1 h with h | h
      · exact (dig_not (digs_isDig _ _ h)).2.1 rfl
      · revert h; decide
    · rcases List.mem_append.1 h with h | h
      · exact (dig_not (digs_isDig _ _ h)).2.1 rfl
      · revert h; decide
  · exact hh h

theorem durLine_noEol (d : Option ℕ) : '\n' ∉ durLine d := by
  cases d with
  | none => simp [durLine]
  | some n =>
    simp only [durLine, List.mem_append, not_or]
    exact ⟨⟨by decide +kernel, by decide⟩, durText_noEol n⟩

/-! ## The lines of the log -/

/-- The lines of one message. -/
def msgLines (nm : Num K) (S : Solver) (m : Msg K) : List Str := pyLines (msgText nm S m)

theorem msgText_last (S : Solver) (m : Msg K) :
    msgText nm S m = [] ∨ (msgText nm S m).getLast? = some '\n' := by
  cases m with
  | other text => right; simp [msgText]
  | info v d => exact withEol_last _
  | untilT t => exact withEol_last _
  | untilIt n => exact withEol_last _
  | saved s => exact withEol_last _

theorem log_append (S : Solver) (file : Str) (a b : List (Msg K)) :
    log nm S file (a ++ b) = log nm S (log nm S file a) b := by simp [log]

theorem log_eq (S : Solver) (file : Str) (ms : List (Msg K)) :
    log nm S file ms = file ++ ms.flatMap (msgText nm S) := by
  induction ms generalizing file with
  | nil => simp [log]
  | cons m ms ih =>
    have : log nm S file (m :: ms) = log nm S (file ++ msgText nm S m) ms := rfl
    rw [this, ih]
    simp

theorem texts_last (S : Solver) (ms : List (Msg K)) :
    ms.flatMap (msgText nm S) = [] ∨ (ms.flatMap (msgText nm S)).getLast? = some '\n' := by
  induction ms with
  | nil => left; rfl
  | cons m ms ih =>
    rw [List.flatMap_cons]
    rcases ih with h | h
    · rw [h, List.append_nil]; exact msgText_last S m
    · right
      rw [List.getLast?_append, h]
      rfl

theorem log_last (S : Solver) (ms : List (Msg K)) :
    log nm S [] ms = [] ∨ (log nm S [] ms).getLast? = some '\n' := by
  rw [log_eq, List.nil_append]; exact texts_last S ms

theorem pyLines_texts (S : Solver) (ms : List (Msg K)) :
    pyLines (ms.flatMap (msgText nm S)) = ms.flatMap (msgLines nm S) := by
  induction ms with
  | nil => rfl
  | cons m ms ih =>
    rw [List.flatMap_cons, List.flatMap_cons, pyLines_split _ _ (msgText_last S m), ih]
    rfl

theorem pyLines_log (S : Solver) (ms : List (Msg K)) : pyLines (log nm S [] ms) = ms.flatMap (msgLines nm S) := by
  rw [log_eq, List.nil_append, pyLines_texts]

theorem pyLines_eol (ls : List Str) (h : ∀ l ∈ ls, '\n' ∉ l) : pyLines (withEol ls) = ls.map (· ++ ['\n']) := by
  have := pyLines_withEol ls h []
  simpa [pyLines] using this

theorem lines_info (h : NumOk nm rd) (S : Solver) (v : Str → K) (d : Option ℕ) :
    msgLines nm S (.info v d) = (S.lines.map fun l => Line.text nm v l ++ ['\n']) ++ [durLine d ++ ['\n']] := by
  rw [msgLines, msgText, pyLines_eol]
  · simp
  · intro l hl
    rcases List.mem_append.1 hl with hl | hl
    · obtain ⟨k, hk, rfl⟩ := List.mem_map.1 hl
      exact text_noEol h S v k hk
    · rw [List.mem_singleton.1 hl]
      exact durLine_noEol d

theorem lines_untilT (h : NumOk nm rd) (S : Solver) (t : K) :
    msgLines nm S (.untilT t) = [untilTHead ++ (' ' :: nm.fmt "t_end".toList t ++ ['\n'])] := by
  rw [msgLines, msgText, pyLines_eol]
  · simp
  · intro l hl
    rw [List.mem_singleton.1 hl]
    simp only [List.mem_append, List.mem_cons, not_or]
    exact ⟨by decide, by decide, numOk_noEol h _ _⟩

theorem lines_untilIt (S : Solver) (n : ℕ) :
    msgLines nm S (.untilIt n) = ["    compute until it = ".toList ++
      (List.replicate (8 - (digs n).length) ' ' ++ digs n ++ ['\n'])] := by
  rw [msgLines, msgText, pyLines_eol]
  · simp
  · intro l hl
    rw [List.mem_singleton.1 hl]
    simp only [List.mem_append, not_or]
    refine ⟨⟨by decide, ?_⟩, fun hm => (dig_not (digs_isDig _ _ hm)).2.1 rfl⟩
    intro hm
    exact absurd (List.eq_of_mem_replicate hm) (by decide)

theorem lines_saved (S : Solver) (name : Str) (hn : '\n' ∉ name) :
    msgLines nm S (.saved name) = [savedHead ++ (' ' :: name ++ ['\n'])] := by
  rw [msgLines, msgText, pyLines_eol]
  · simp
  · intro l hl
    rw [List.mem_singleton.1 hl]
    simp only [List.mem_append, List.mem_cons, not_or]
    exact ⟨by decide, by decide, hn⟩

/-! ## Reading one line -/

/-- The words of the numbers are those which are read. -/
def WordsAt : List Fld → ℕ → Prop
  | [], _ => True
  | f :: r, p => f.pos = p + (splitWs f.label).length ∧ WordsAt r (f.pos + 1)

instance instWordsAt : (l : List Fld) → (p : ℕ) → Decidable (WordsAt l p)
  | [], _ => isTrue trivial
  | f :: r, p =>
    have := instWordsAt r (f.pos + 1)
    decidable_of_iff (f.pos = p + (splitWs f.label).length ∧ WordsAt r (f.pos + 1)) Iff.rfl

theorem words_at (S : Solver) : ∀ l ∈ S.lines, l.loaded = true → WordsAt l.flds 0 := by
  cases S <;> decide +kernel

theorem words_pos (g : Fld → Str) (l : List Fld) (pre : List Str) (hw : WordsAt l pre.length) :
    ∀ f ∈ l, (pre ++ l.flatMap fun f => splitWs f.label ++ [g f])[f.pos]? = some (g f) := by
  induction l generalizing pre with
  | nil => simp
  | cons a l ih =>
    intro f hf
    obtain ⟨h1, h2⟩ := hw
    rw [List.flatMap_cons, ← List.append_assoc]
    have hlen : (pre ++ (splitWs a.label ++ [g a])).length = a.pos + 1 := by
      rw [h1]; simp; omega
    rcases List.mem_cons.1 hf with rfl | hf
    · rw [List.getElem?_append_left (by omega), ← List.append_assoc,
        List.getElem?_append_right (by simp [h1])]
      simp [h1]
    · exact ih _ (by rw [hlen]; exact h2) f hf

theorem numAt_fld (h : NumOk nm rd) (S : Solver) (v : Str → K) (l : Line) (hl : l ∈ S.lines) (hlo : l.loaded = true)
    (f : Fld) (hf : f ∈ l.flds) :
    numAt nm (splitWs (Line.text nm v l ++ ['\n'])) f.pos = .ok (rd f.name (v f.name)) := by
  have e : splitWs (Line.text nm v l ++ ['\n']) = l.flds.flatMap fun f => splitWs f.label ++ [word h f.name (v f.name)] := by
    rw [Line.text, (lines_ok S).trail l hl hlo, List.append_nil,
      words_fields h v _ ['\n'] (by decide) (Or.inr rfl), List.flatMap_map]
  have := words_pos (fun f => word h f.name (v f.name)) l.flds [] (words_at S l hl hlo) f hf
  rw [List.nil_append] at this
  rw [e, numAt, this]
  simp only
  rw [word_float h]

theorem allOk_ok {A B : Type*} (f : A → Except Err B) (g : A → B) (l : List A)
    (h : ∀ a ∈ l, f a = .ok (g a)) : allOk f l = .ok (l.map g) := by
  induction l with
  | nil => rfl
  | cons a l ih =>
    rw [allOk, h a (by simp), ih fun x hx => h x (by simp [hx])]
    rfl

/-! ## Choosing the lines -/

theorem filter_none (h : Str) (ls : List Str) (H : ∀ l ∈ ls, ¬ h <+: l) : ls.filter (startsWith h) = [] := by
  rw [List.filter_eq_nil_iff]
  intro l hl
  rw [sw_true]
  exact H l hl

theorem filter_info (h : NumOk nm rd) (S : Solver) (v : Str → K) (d : Option ℕ) (l : Line) (hl : l ∈ S.lines)
    (hlo : l.loaded = true) :
    (msgLines nm S (.info v d)).filter (startsWith l.head) = [Line.text nm v l ++ ['\n']] := by
  have key : ∀ ls : List Line, ls.Nodup → ls ⊆ S.lines →
      (ls.map fun l => Line.text nm v l ++ ['\n']).filter (startsWith l.head) =
        if l ∈ ls then [Line.text nm v l ++ ['\n']] else [] := by
    intro ls
    induction ls with
    | nil => simp
    | cons a ls ih =>
      intro hnd hsub
      have hnd' := List.nodup_cons.1 hnd
      have ih' := ih hnd'.2 fun x hx => hsub (List.mem_cons_of_mem _ hx)
      obtain ⟨t, ht⟩ := text_head (nm := nm) v a ((lines_ok S).ne a (hsub (by simp)))
      rw [List.map_cons, List.filter_cons, ih']
      by_cases hal : l = a
      · subst hal
        have : startsWith l.head (Line.text nm v l ++ ['\n']) = true := by
          rw [sw_true, ht, List.append_assoc, List.append_assoc]
          exact List.prefix_append _ _
        rw [this]
        simp [hnd'.1]
      · have : startsWith l.head (Line.text nm v a ++ ['\n']) = false := by
          rw [ht, List.append_assoc]
          exact apart_sw (heads_apart S l hl a (hsub (by simp)) hlo hal) _
        rw [this]
        simp [hal]
  rw [lines_info h, List.filter_append, key S.lines (lines_nodup S) (fun _ hx => hx), if_pos hl]
  have : [durLine d ++ ['\n']].filter (startsWith l.head) = [] := by
    apply filter_none
    intro x hx
    rw [List.mem_singleton.1 hx]
    obtain ⟨o1, o2, -⟩ := heads_others S l hl hlo
    cases d with
    | none => have := apart_not o1 []; simpa [durLine] using this
    | some n =>
      rw [durLine, List.append_assoc, List.append_assoc]
      exact apart_not o2 _
  rw [this]
  rfl

theorem filter_other (h : NumOk nm rd) (S : Solver) (heads : List String) (m : Msg K) (hm : MsgOk heads m)
    (hi : infos [m] = []) (l : Line) (hl : l ∈ S.lines) (hlo : l.loaded = true)
    (hh : ∃ h ∈ heads, h.toList = l.head) : (msgLines nm S m).filter (startsWith l.head) = [] := by
  obtain ⟨o1, o2, o3, o4, o5⟩ := heads_others S l hl hlo
  apply filter_none
  intro x hx
  cases m with
  | info v d => simp [infos] at hi
  | untilT t =>
    rw [lines_untilT h] at hx
    rw [List.mem_singleton.1 hx]
    exact apart_not o3 _
  | untilIt n =>
    rw [lines_untilIt] at hx
    rw [List.mem_singleton.1 hx]
    exact apart_not o4 _
  | saved s =>
    rw [lines_saved S s hm] at hx
    rw [List.mem_singleton.1 hx]
    exact apart_not o5 _
  | other text =>
    obtain ⟨hd, hd1, hd2⟩ := hh
    rw [← hd2]
    exact hm x hx hd hd1

theorem infos_cons (m : Msg K) (ms : List (Msg K)) : infos (m :: ms) = infos [m] ++ infos ms := by
  cases m <;> simp [infos]

theorem infos_append (a b : List (Msg K)) : infos (a ++ b) = infos a ++ infos b := by
  induction a with
  | nil => rfl
  | cons m a ih => rw [List.cons_append, infos_cons, ih, infos_cons m a, List.append_assoc]

theorem untils_append (a b : List (Msg K)) : untils (a ++ b) = untils a ++ untils b := by
  induction a with
  | nil => rfl
  | cons m a ih => cases m <;> simp [untils, ih]

theorem filter_heads (h : NumOk nm rd) (S : Solver) (heads : List String) (ms : List (Msg K))
    (hms : ∀ m ∈ ms, MsgOk heads m) (l : Line) (hl : l ∈ S.lines) (hlo : l.loaded = true)
    (hh : ∃ h ∈ heads, h.toList = l.head) :
    (ms.flatMap (msgLines nm S)).filter (startsWith l.head) = (infos ms).map fun v => Line.text nm v l ++ ['\n'] := by
  induction ms with
  | nil => rfl
  | cons m ms ih =>
    rw [List.flatMap_cons, List.filter_append, ih fun x hx => hms x (by simp [hx]), infos_cons, List.map_append]
    congr 1
    by_cases hi : infos [m] = []
    · rw [filter_other h S heads m (hms m (by simp)) hi l hl hlo hh, hi, List.map_nil]
    · cases m with
      | info v d => rw [filter_info h S v d l hl hlo]; rfl
      | _ => simp [infos] at hi

theorem filter_msgs (h : NumOk nm rd) (S : Solver) (ms : List (Msg K)) (hms : ∀ m ∈ ms, MsgOk S.heads m) (l : Line)
    (hl : l ∈ S.lines) (hlo : l.loaded = true) :
    (ms.flatMap (msgLines nm S)).filter (startsWith l.head) = (infos ms).map fun v => Line.text nm v l ++ ['\n'] :=
  filter_heads h S S.heads ms hms l hl hlo (heads_mem S l hl hlo)

theorem row_eq (S : Solver) (v : Str → K) :
    ((S.lines.filter Line.loaded).map fun l => l.flds.map fun f => (f.name, rd f.name (v f.name))).flatten =
      S.row (rounded rd v) := by
  cases S <;> rfl

/-- Reading the index `il`, when the lines of each kind at this index are those of `v`. -/
theorem row_ok (h : NumOk nm rd) (S : Solver) (v : Str → K) (ls : List Str) (il : ℕ)
    (H : ∀ l ∈ S.lines, l.loaded = true →
      (ls.filter (startsWith l.head))[il]? = some (Line.text nm v l ++ ['\n'])) :
    (allOk (readLine nm ls il) (S.lines.filter Line.loaded)).map List.flatten = .ok (S.row (rounded rd v)) := by
  rw [allOk_ok _ fun l => l.flds.map fun f => (f.name, rd f.name (v f.name))]
  · rw [Except.map, row_eq]
  · intro l hl
    obtain ⟨hl, hlo⟩ := List.mem_filter.1 hl
    rw [readLine, H l hl hlo]
    simp only
    apply allOk_ok
    intro f hf
    rw [numAt_fld h S v l hl hlo f hf]
    rfl

/-- `load` of a text, when the lines of each kind at the indices below `nt` are those of the values of `w`. -/
theorem load_rows (h : NumOk nm rd) (S : Solver) (w : ℕ → Str → K) (text : Str) (nt : ℕ)
    (H : ∀ i < nt, ∀ l ∈ S.lines, l.loaded = true →
      ((pyLines text).filter (startsWith l.head))[i]? = some (Line.text nm (w i) l ++ ['\n']))
    (hn : (let n := ((pyLines text).filter (startsWith itLine.head)).length
      if n > 1 then n - 1 else n) = nt) :
    load nm S text = .ok ((List.range nt).map fun i => S.row (rounded rd (w i))) := by
  unfold load
  simp only at hn ⊢
  rw [hn]
  apply allOk_ok
  intro i hi
  exact row_ok h S (w i) _ i (H i (List.mem_range.1 hi))

/-- `load` of a text with the lines of `vs` first, when there are `nt` lines to read. -/
theorem load_lines (h : NumOk nm rd) (S : Solver) (vs : List (Str → K)) (text : Str) (nt : ℕ) (hnt : nt ≤ vs.length)
    (H : ∀ l ∈ S.lines, l.loaded = true → ∃ r,
      (pyLines text).filter (startsWith l.head) = (vs.map fun v => Line.text nm v l ++ ['\n']) ++ r)
    (hn : (let n := ((pyLines text).filter (startsWith itLine.head)).length
      if n > 1 then n - 1 else n) = nt) :
    load nm S text = .ok ((vs.take nt).map fun v => S.row (rounded rd v)) := by
  unfold load
  simp only at hn ⊢
  rw [hn]
  have e : (vs.take nt).map (fun v => S.row (rounded rd v)) =
      (List.range nt).map fun i => (vs[i]?.map fun v => S.row (rounded rd v)).getD [] := by
    apply List.ext_getElem?
    intro i
    by_cases hi : i < nt
    · have hi' : i < vs.length := by omega
      simp [hi, hi']
    · simp [hi]
  rw [e]
  apply allOk_ok
  intro i hi
  have hi' : i < vs.length := by
    have := List.mem_range.1 hi
    omega
  rw [row_ok h S vs[i]]
  · simp [hi']
  · intro l hl hlo
    obtain ⟨r, hr⟩ := H l hl hlo
    rw [hr, List.getElem?_append_left (by simpa using hi')]
    simp [hi']

/-! ## Texts cut -/

/-- The lines of `a` are the first ones of `b`, the last one possibly cut. -/
inductive Cut : List Str → List Str → Prop where
  | nil (b : List Str) : Cut [] b
  | cons {l l' : Str} {a b : List Str} : l <+: l' → Cut a b → Cut (l :: a) (l' :: b)

theorem cut_take (t : Str) (n : ℕ) : Cut (pyLines (t.take n)) (pyLines t) := by
  induction t generalizing n with
  | nil => simp [pyLines]; exact Cut.nil _
  | cons c t ih =>
    cases n with
    | zero => simp only [List.take_zero, pyLines]; exact Cut.nil _
    | succ n =>
      have ih' := ih n
      rw [List.take_succ_cons, pyLines, pyLines]
      by_cases hc : c = '\n'
      · rw [if_pos hc, if_pos hc]
        exact Cut.cons (List.prefix_refl _) ih'
      · rw [if_neg hc, if_neg hc]
        revert ih'
        cases pyLines (t.take n) with
        | nil =>
          intro _
          cases pyLines t with
          | nil => exact Cut.cons (List.prefix_refl _) (Cut.nil _)
          | cons l r => exact Cut.cons (by simp) (Cut.nil _)
        | cons l r =>
          cases pyLines t with
          | nil => intro h; cases h
          | cons l' r' =>
            intro h
            cases h with
            | cons h1 h2 => exact Cut.cons (by simpa using h1) h2

theorem cut_count (h : Str) {a b : List Str} (H : Cut a b) :
    (a.filter (startsWith h)).length ≤ (b.filter (startsWith h)).length := by
  induction H with
  | nil b => simp
  | @cons l l' a b h1 h2 ih =>
    rw [List.filter_cons, List.filter_cons]
    by_cases hl : startsWith h l = true
    · have : startsWith h l' = true := by
        rw [sw_true] at hl ⊢
        exact hl.trans h1
      rw [if_pos hl, if_pos this]
      simpa using ih
    · rw [if_neg hl]
      split_ifs
      · simp; omega
      · exact ih

end

end Verif.StdOut
