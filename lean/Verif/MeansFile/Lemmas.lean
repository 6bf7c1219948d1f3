import Verif.MeansFile.Spec
import Verif.PhysFiles.Lemmas
import Mathlib.Data.List.Nodup
import Mathlib.Tactic.Ring

/-! # Lemmas for C60 -/

namespace Verif.MeansFile

open Verif.PhysFiles (Str)

set_option linter.unusedSectionVars false

/-! ## Words -/

theorem splitAux_append (b : Str) (c : Char) (hc : isWs c = true) (a acc : Str) :
    splitAux acc (a ++ c :: b) = splitAux acc a ++ splitAux [] b := by
  induction a generalizing acc with
  | nil => by_cases h : acc = [] <;> simp [splitAux, hc, h]
  | cons x a ih =>
    simp only [List.cons_append, splitAux]
    by_cases hx : isWs x = true
    · simp only [hx, if_true]
      by_cases h : acc = []
      · simp [h, ih]
      · simp [h, ih]
    · simp [hx, ih]

theorem split_append (a b : Str) (c : Char) (hc : isWs c = true) :
    splitWs (a ++ c :: b) = splitWs a ++ splitWs b := splitAux_append b c hc a []

theorem splitAux_word (w acc : Str) (h : ∀ c ∈ w, isWs c = false) (hne : acc ≠ [] ∨ w ≠ []) :
    splitAux acc w = [acc.reverse ++ w] := by
  induction w generalizing acc with
  | nil =>
    have : acc ≠ [] := by simpa using hne
    simp [splitAux, this]
  | cons c w ih =>
    have hc : isWs c = false := h c (by simp)
    simp only [splitAux, hc]
    rw [if_neg (by simp), ih (c :: acc) (fun d hd => h d (by simp [hd])) (Or.inl (by simp))]
    simp

theorem split_word (w : Str) (h : ∀ c ∈ w, isWs c = false) (hne : w ≠ []) : splitWs w = [w] := by
  have := splitAux_word w [] h (Or.inr hne)
  simpa [splitWs] using this

theorem split_pad (p : ℕ) (w : Str) : splitWs (List.replicate p ' ' ++ w) = splitWs w := by
  induction p with
  | zero => simp
  | succ p ih =>
    rw [List.replicate_succ, List.cons_append]
    have := split_append [] (List.replicate p ' ' ++ w) ' ' rfl
    rw [List.nil_append] at this
    rw [this, ih]
    rfl

/-- The word of a number. -/
theorem numOk_word {K : Type*} {nm : Num K} {rd : Str → K → K} (h : NumOk nm rd) (n : Str) (x : K) :
    ∃ w, splitWs (nm.fmt n x) = [w] ∧ nm.pyFloat w = some (rd n x) ∧ w ≠ [] := by
  obtain ⟨p, w, h1, h2, h3, h4⟩ := h n x
  exact ⟨w, by rw [h1, split_pad, split_word w h3 h2], h4, h2⟩

theorem numOk_noEol {K : Type*} {nm : Num K} {rd : Str → K → K} (h : NumOk nm rd) (n : Str)
    (x : K) : '\n' ∉ nm.fmt n x := by
  obtain ⟨p, w, h1, h2, h3, h4⟩ := h n x
  rw [h1]
  intro hm
  rcases List.mem_append.1 hm with hm | hm
  · exact absurd (List.eq_of_mem_replicate hm) (by decide)
  · have := h3 _ hm
    simp [isWs] at this

noncomputable def word {K : Type*} {nm : Num K} {rd : Str → K → K} (h : NumOk nm rd) (n : Str)
    (x : K) : Str := (numOk_word h n x).choose

theorem word_split {K : Type*} {nm : Num K} {rd : Str → K → K} (h : NumOk nm rd) (n : Str) (x : K) :
    splitWs (nm.fmt n x) = [word h n x] := (numOk_word h n x).choose_spec.1

theorem word_float {K : Type*} {nm : Num K} {rd : Str → K → K} (h : NumOk nm rd) (n : Str) (x : K) :
    nm.pyFloat (word h n x) = some (rd n x) := (numOk_word h n x).choose_spec.2.1

/-! ## Lines -/

theorem pyLines_line (a b : Str) (h : '\n' ∉ a) :
    pyLines (a ++ '\n' :: b) = (a ++ ['\n']) :: pyLines b := by
  induction a with
  | nil => simp [pyLines]
  | cons c a ih =>
    have hc : c ≠ '\n' := by
      rintro rfl
      simp at h
    have ha : '\n' ∉ a := fun hm => h (by simp [hm])
    rw [List.cons_append, pyLines, if_neg hc, ih ha]
    rfl

theorem pyLines_last (a : Str) (h : '\n' ∉ a) (hne : a ≠ []) : pyLines a = [a] := by
  induction a with
  | nil => exact absurd rfl hne
  | cons c a ih =>
    have hc : c ≠ '\n' := by
      rintro rfl
      simp at h
    have ha : '\n' ∉ a := fun hm => h (by simp [hm])
    rw [pyLines, if_neg hc]
    by_cases h0 : a = []
    · subst h0
      rfl
    · rw [ih ha h0]

theorem pyLines_withEol (ls : List Str) (h : ∀ l ∈ ls, '\n' ∉ l) (b : Str) :
    pyLines (withEol ls ++ b) = ls.map (· ++ ['\n']) ++ pyLines b := by
  induction ls with
  | nil => simp [withEol]
  | cons l ls ih =>
    have hl := h l (by simp)
    have ih' := ih fun x hx => h x (by simp [hx])
    have e : withEol (l :: ls) ++ b = l ++ '\n' :: (withEol ls ++ b) := by
      simp [withEol]
    rw [e, pyLines_line _ _ hl, ih']
    rfl

theorem withEol_append (a b : List Str) : withEol (a ++ b) = withEol a ++ withEol b := by
  simp [withEol]

/-- Any text is made of whole lines up to its last end of line. -/
theorem pyLines_split (a b : Str) (h : a = [] ∨ a.getLast? = some '\n') :
    pyLines (a ++ b) = pyLines a ++ pyLines b := by
  induction a with
  | nil => simp [pyLines]
  | cons c a ih =>
    by_cases hc : c = '\n'
    · subst hc
      have ha : a = [] ∨ a.getLast? = some '\n' := by
        cases a with
        | nil => left; rfl
        | cons d a =>
          right
          rcases h with h | h
          · simp at h
          · rw [List.getLast?_cons_cons] at h
            exact h
      rw [List.cons_append, pyLines, if_pos rfl, ih ha]
      conv_rhs => rw [pyLines, if_pos rfl]
      rfl
    · cases a with
      | nil =>
        rcases h with h | h
        · simp at h
        · simp at h
          exact absurd h hc
      | cons d a =>
        have ha : (d :: a) = [] ∨ (d :: a).getLast? = some '\n' := by
          right
          rcases h with h | h
          · simp at h
          · rw [List.getLast?_cons_cons] at h
            exact h
        rw [List.cons_append, pyLines, if_neg hc, ih ha]
        conv_rhs => rw [pyLines, if_neg hc]
        have hne : pyLines (d :: a) ≠ [] := by
          rw [pyLines]
          split_ifs
          · simp
          · split <;> simp
        cases hl : pyLines (d :: a) with
        | nil => exact absurd hl hne
        | cons l r => rfl

/-! ## The chunks of a file: what is in the file, kind by kind -/

section
variable {K : Type*}

/-- The words before the number `i`, in the list of the fields. -/
def WordsOk : List (Str × Str) → ℕ → Prop
  | [], _ => True
  | (c, _) :: r, n => (splitWs c).length = n ∧ WordsOk r 3

instance : (l : List (Str × Str)) → (n : ℕ) → Decidable (WordsOk l n)
  | [], _ => isTrue trivial
  | (c, _) :: r, n =>
    have := instDecidableWordsOk r 3
    by unfold WordsOk; infer_instance

/-- What makes a format readable. -/
structure FormatOk (F : Format) : Prop where
  nodup : F.kinds.Nodup
  time : timeKind ∈ F.kinds
  ne : ∀ k ∈ F.kinds, k.fields ≠ []
  words : ∀ k ∈ F.kinds, WordsOk k.fields 2
  noEol : ∀ k ∈ F.kinds, '\n' ∉ k.trail ∧ ∀ f ∈ k.fields, '\n' ∉ f.1
  trail : ∀ k ∈ F.kinds, splitWs k.trail = [] ∧ (k.trail = [] ∨ k.trail.head? = some ' ')
  sep : ∀ k ∈ F.kinds, ∀ k' ∈ F.kinds, k ≠ k' →
    ¬ k.pre <+: k'.pre ++ [' '] ∧ ¬ k'.pre ++ [' '] <+: k.pre
  hash : ∀ k ∈ F.kinds, ¬ k.pre <+: hashes ++ ['\n']

theorem format_ok (s : Solver) : FormatOk s.format := by
  cases s <;> refine ⟨by decide +kernel, by decide +kernel, by decide +kernel, by decide +kernel,
    by decide +kernel, by decide +kernel, by decide +kernel, by decide +kernel⟩

/-- A chunk of the file: the values and the kinds of lines which have been written. -/
structure Chunk (K : Type*) where
  v : Str → K
  ks : List Kind

def Chunk.lines (nm : Num K) (c : Chunk K) : List Str := hashes :: c.ks.map (lineText nm c.v)

def chunkLines (nm : Num K) (cs : List (Chunk K)) : List Str := cs.flatMap (Chunk.lines nm)

/-- The values of which there is a line of the kind `k`. -/
def cols (cs : List (Chunk K)) (k : Kind) : List (Str → K) :=
  (cs.filter fun c => decide (k ∈ c.ks)).map Chunk.v

variable {nm : Num K} {rd : Str → K → K} {F : Format}

theorem fieldsText_pre (v : Str → K) (l : List (Str × Str)) (h : l ≠ []) :
    ∃ t, fieldsText nm v l = (l.map Prod.fst).headD [] ++ ' ' :: t := by
  match l, h with
  | [(c, n)], _ => exact ⟨_, rfl⟩
  | (c, n) :: _ :: _, _ => exact ⟨_, rfl⟩

theorem lineText_pre (v : Str → K) (k : Kind) (h : k.fields ≠ []) :
    ∃ t, lineText nm v k = k.pre ++ ' ' :: t := by
  obtain ⟨t, ht⟩ := fieldsText_pre (nm := nm) v k.fields h
  exact ⟨t ++ k.trail, by rw [lineText, ht]; simp [Kind.pre]⟩

theorem prefix_iff (hF : FormatOk F) (v : Str → K) {k k' : Kind} (hk : k ∈ F.kinds)
    (hk' : k' ∈ F.kinds) : k.pre.isPrefixOf (lineText nm v k' ++ ['\n']) = decide (k' = k) := by
  obtain ⟨t, ht⟩ := lineText_pre (nm := nm) v k' (hF.ne k' hk')
  have e : lineText nm v k' ++ ['\n'] = (k'.pre ++ [' ']) ++ (t ++ ['\n']) := by
    rw [ht]
    simp
  by_cases h : k' = k
  · subst h
    simp only [decide_true]
    rw [List.isPrefixOf_iff_prefix, e, List.append_assoc]
    exact List.prefix_append _ _
  · rw [decide_eq_false h]
    by_contra hc
    rw [Bool.not_eq_false, List.isPrefixOf_iff_prefix, e] at hc
    have := hF.sep k hk k' hk' (Ne.symm h)
    rcases List.prefix_or_prefix_of_prefix hc (List.prefix_append _ _) with h1 | h1
    · exact this.1 h1
    · exact this.2 h1

theorem hash_not (hF : FormatOk F) {k : Kind} (hk : k ∈ F.kinds) :
    k.pre.isPrefixOf (hashes ++ ['\n']) = false := by
  by_contra hc
  rw [Bool.not_eq_false, List.isPrefixOf_iff_prefix] at hc
  exact hF.hash k hk hc

theorem kLines_append (k : Kind) (a b : List Str) : kLines k (a ++ b) = kLines k a ++ kLines k b := by
  simp [kLines]

theorem kLines_chunk (hF : FormatOk F) (c : Chunk K) (hsub : c.ks.Sublist F.kinds) {k : Kind}
    (hk : k ∈ F.kinds) : kLines k ((c.lines nm).map (· ++ ['\n'])) =
      if k ∈ c.ks then [lineText nm c.v k ++ ['\n']] else [] := by
  have hnd : c.ks.Nodup := hF.nodup.sublist hsub
  have key : ∀ l : List Kind, l.Nodup → l ⊆ F.kinds →
      kLines k ((l.map (lineText nm c.v)).map (· ++ ['\n'])) =
        if k ∈ l then [lineText nm c.v k ++ ['\n']] else [] := by
    intro l
    induction l with
    | nil => intro _ _; simp [kLines]
    | cons a l ih =>
      intro hnd hs
      have ha : a ∈ F.kinds := hs (by simp)
      have ih' := ih (List.nodup_cons.1 hnd).2 (fun x hx => hs (by simp [hx]))
      simp only [List.map_cons, kLines, List.filter_cons] at ih' ⊢
      rw [prefix_iff hF c.v hk ha]
      by_cases hak : a = k
      · subst hak
        have : a ∉ l := (List.nodup_cons.1 hnd).1
        rw [if_pos (by simp), ih', if_neg this, if_pos (by simp)]
      · rw [if_neg (by simp [hak]), ih']
        have : (k ∈ a :: l) ↔ k ∈ l := by
          simp [Ne.symm hak]
        simp only [this]
  have h0 := key c.ks hnd hsub.subset
  simp only [Chunk.lines, List.map_cons, kLines, List.filter_cons] at h0 ⊢
  rw [if_neg (by rw [hash_not hF hk]; simp)]
  exact h0

theorem kLines_chunks (hF : FormatOk F) (cs : List (Chunk K))
    (hsub : ∀ c ∈ cs, c.ks.Sublist F.kinds) {k : Kind} (hk : k ∈ F.kinds) :
    kLines k ((chunkLines nm cs).map (· ++ ['\n'])) =
      (cols cs k).map fun v => lineText nm v k ++ ['\n'] := by
  induction cs with
  | nil => simp [chunkLines, kLines, cols]
  | cons c cs ih =>
    have ih' := ih fun x hx => hsub x (by simp [hx])
    have e : (chunkLines nm (c :: cs)).map (· ++ ['\n']) =
        (c.lines nm).map (· ++ ['\n']) ++ (chunkLines nm cs).map (· ++ ['\n']) := by
      simp [chunkLines]
    rw [e, kLines_append, ih', kLines_chunk hF c (hsub c (by simp)) hk]
    by_cases h : k ∈ c.ks
    · simp [cols, h]
    · simp [cols, h]

/-! ## The numbers of a line -/

theorem words_fields (h : NumOk nm rd) (v : Str → K) (l : List (Str × Str)) (t : Str)
    (ht : splitWs t = []) (hh : t.head? = some ' ' ∨ t.head? = some '\n') :
    splitWs (fieldsText nm v l ++ t) =
      l.flatMap fun f => splitWs f.1 ++ [word h f.2 (v f.2)] := by
  have tl : ∀ a : Str, splitWs (a ++ t) = splitWs a := by
    intro a
    cases t with
    | nil => simp at hh
    | cons c t =>
      have hc : isWs c = true := by
        rcases hh with hh | hh <;> simp at hh <;> subst hh <;> rfl
      have e := split_append [] t c hc
      rw [List.nil_append, ht] at e
      have : splitWs t = [] := by
        have := e.symm
        exact (List.append_eq_nil_iff.1 this).2
      rw [split_append a t c hc, this, List.append_nil]
  rw [tl]
  induction l with
  | nil => rfl
  | cons f r ih =>
    obtain ⟨c, n⟩ := f
    cases r with
    | nil =>
      simp only [fieldsText, List.flatMap_cons, List.flatMap_nil, List.append_nil]
      rw [split_append _ _ ' ' rfl, word_split h]
    | cons g r =>
      simp only [fieldsText]
      rw [split_append _ _ ' ' rfl, split_append _ _ ' ' rfl, word_split h, ih]
      simp

theorem words_line (h : NumOk nm rd) (hF : FormatOk F) (v : Str → K) {k : Kind}
    (hk : k ∈ F.kinds) : splitWs (lineText nm v k ++ ['\n']) =
      k.fields.flatMap fun f => splitWs f.1 ++ [word h f.2 (v f.2)] := by
  rw [lineText, List.append_assoc]
  have ht := hF.trail k hk
  refine words_fields h v k.fields (k.trail ++ ['\n']) ?_ ?_
  · have := split_append k.trail [] '\n' rfl
    rw [this, ht.1]
    rfl
  · rcases ht.2 with h0 | h0
    · right
      simp [h0]
    · left
      cases hk : k.trail with
      | nil => simp [hk] at h0
      | cons c r =>
        simp [hk] at h0 ⊢
        exact h0

theorem words_get (h : NumOk nm rd) (v : Str → K) (l : List (Str × Str)) (p : ℕ)
    (hw : WordsOk l p) (i : ℕ) (hi : i < l.length) :
    (l.flatMap fun f => splitWs f.1 ++ [word h f.2 (v f.2)])[4 * i + p]? =
      some (word h l[i].2 (v l[i].2)) := by
  induction l generalizing p i with
  | nil => simp at hi
  | cons f r ih =>
    obtain ⟨c, n⟩ := f
    obtain ⟨h1, h2⟩ := hw
    simp only [List.flatMap_cons]
    cases i with
    | zero =>
      rw [List.append_assoc, List.getElem?_append_right (by omega)]
      simp [h1]
    | succ i =>
      have := ih 3 h2 i (by simpa using hi)
      rw [List.getElem?_append_right (by simp [h1]; omega)]
      have e : 4 * (i + 1) + p - (splitWs c ++ [word h n (v n)]).length = 4 * i + 3 := by
        simp [h1]
        omega
      rw [e, this]
      simp

theorem words_length (h : NumOk nm rd) (v : Str → K) (l : List (Str × Str)) (p : ℕ)
    (hw : WordsOk l p) (hne : l ≠ []) :
    (l.flatMap fun f => splitWs f.1 ++ [word h f.2 (v f.2)]).length = 4 * (l.length - 1) + p + 1 := by
  induction l generalizing p with
  | nil => exact absurd rfl hne
  | cons f r ih =>
    obtain ⟨c, n⟩ := f
    obtain ⟨h1, h2⟩ := hw
    cases r with
    | nil => simp [h1]
    | cons g r =>
      have := ih 3 h2 (by simp)
      simp only [List.flatMap_cons, List.length_append, List.length_cons, List.length_nil] at this ⊢
      omega

theorem numAt_word (h : NumOk nm rd) (words : List Str) (j : ℕ) (n : Str) (x : K)
    (hw : words[j]? = some (word h n x)) : numAt nm words j = .ok (rd n x) := by
  unfold numAt
  rw [hw]
  simp only
  rw [word_float h n x]

theorem readNames_ok (words : List Str) (f : Str → K) (l : List (Str × ℕ))
    (hl : ∀ p ∈ l, numAt nm words (4 * p.2 + 2) = .ok (f p.1)) :
    readNames nm words l = .ok (l.map fun p => (p.1, f p.1)) := by
  induction l with
  | nil => rfl
  | cons p r ih =>
    obtain ⟨n, i⟩ := p
    have h1 := hl (n, i) (by simp)
    simp only at h1
    rw [readNames, h1, ih fun q hq => hl q (by simp [hq])]
    rfl

theorem zipIdx_fst (l : List Str) (f : Str → K) :
    (l.zipIdx.map fun p => (p.1, f p.1)) = l.map fun n => (n, f n) := by
  have := List.zipIdx_map_fst 0 l
  conv_rhs => rw [← this, List.map_map]
  rfl

/-- Reading a complete line gives back the rounded numbers. -/
theorem read_line (h : NumOk nm rd) (hF : FormatOk F) (v : Str → K) {k : Kind}
    (hk : k ∈ F.kinds) : readNames nm (splitWs (lineText nm v k ++ ['\n'])) k.names.zipIdx =
      .ok (k.names.map fun n => (n, rounded rd v n)) := by
  rw [words_line h hF v hk, ← zipIdx_fst k.names (rounded rd v)]
  apply readNames_ok
  rintro ⟨n, i⟩ hp
  have hp' := List.mem_zipIdx hp
  simp only [Kind.names, List.length_map] at hp'
  have hi : i < k.fields.length := by omega
  have hn : n = k.fields[i].2 := by
    have := hp'.2.2
    simpa using this
  have := words_get h v k.fields 2 (hF.words k hk) i hi
  rw [← hn] at this
  exact numAt_word h _ _ n (v n) this

/-! ## Loading the chunks -/

/-- What `load` returns in terms of the chunks. -/
def colsUsed (forcing : Bool) (k : Kind) (n : ℕ) : Bool :=
  match k.use with
  | .always => true
  | .forcing => forcing
  | .forcingOrZero => forcing
  | .saved => decide (n ≠ 0)
  | .never => false

def colRead [Zero K] (rd : Str → K → K) (forcing : Bool) (cs : List (Chunk K)) (il : ℕ)
    (k : Kind) : Except Err (List (Str × K)) :=
  if colsUsed forcing k (cols cs k).length then
    match (cols cs k)[il]? with
    | none => .error .IndexError
    | some v => .ok (k.names.map fun n => (n, rounded rd v n))
  else if k.use = .forcingOrZero then .ok (k.names.map fun n => (n, 0))
  else .ok []

def colRow [Zero K] (rd : Str → K → K) (F : Format) (forcing : Bool) (cs : List (Chunk K))
    (il : ℕ) : Except Err (List (Str × K)) :=
  match allOk (colRead rd forcing cs il) F.kinds with
  | .error e => .error e
  | .ok l => .ok l.flatten

def colPoints (F : Format) (cs : List (Chunk K)) : Except Err ℕ :=
  let nt := (cols cs timeKind).length
  if F.safe then
    if F.kinds.all fun k => (cols cs k).length = 0 || (cols cs k).length = nt then .ok nt
    else if nt = 0 then .error .ValueError else .ok (nt - 1)
  else .ok nt

theorem allOk_ok {A B : Type*} (f : A → Except Err B) (g : A → B) (l : List A)
    (h : ∀ a ∈ l, f a = .ok (g a)) : allOk f l = .ok (l.map g) := by
  induction l with
  | nil => rfl
  | cons a l ih =>
    rw [allOk, h a (by simp), ih fun x hx => h x (by simp [hx])]
    rfl

theorem allOk_congr {A B : Type*} (f g : A → Except Err B) (l : List A)
    (h : ∀ a ∈ l, f a = g a) : allOk f l = allOk g l := by
  induction l with
  | nil => rfl
  | cons a l ih =>
    rw [allOk, allOk, h a (by simp), ih fun x hx => h x (by simp [hx])]

theorem allOk_error {A B : Type*} (f : A → Except Err B) (l : List A) (e : Err)
    (h : ∀ a ∈ l, (∃ b, f a = .ok b) ∨ f a = .error e) (he : ∃ a ∈ l, f a = .error e) :
    allOk f l = .error e := by
  induction l with
  | nil => obtain ⟨a, ha, _⟩ := he; simp at ha
  | cons a l ih =>
    rw [allOk]
    rcases h a (by simp) with ⟨b, hb⟩ | hb
    · rw [hb]
      simp only
      have : ∃ a ∈ l, f a = .error e := by
        obtain ⟨x, hx, hxe⟩ := he
        rcases List.mem_cons.1 hx with rfl | hx
        · rw [hb] at hxe
          simp at hxe
        · exact ⟨x, hx, hxe⟩
      rw [ih (fun x hx => h x (by simp [hx])) this]
    · rw [hb]

variable [Zero K]

theorem namesRead_ok (h : NumOk nm rd) (hF : FormatOk F) (cs : List (Chunk K))
    (hsub : ∀ c ∈ cs, c.ks.Sublist F.kinds) {k : Kind} (hk : k ∈ F.kinds)
    (hopt : k.opt = true → cols cs k ≠ []) :
    namesRead k ((chunkLines nm cs).map (· ++ ['\n'])) = .ok k.names := by
  unfold namesRead
  by_cases ho : k.opt = true
  · rw [if_pos ho, kLines_chunks hF cs hsub hk]
    cases hc : cols cs k with
    | nil => exact absurd hc (hopt ho)
    | cons v r =>
      simp only [List.map_cons]
      rw [if_pos]
      rw [words_line h hF v hk, words_length h v k.fields 2 (hF.words k hk) (hF.ne k hk)]
      simp [Kind.names]
  · rw [if_neg ho]

theorem readKind_chunks (h : NumOk nm rd) (hF : FormatOk F) (cs : List (Chunk K))
    (hsub : ∀ c ∈ cs, c.ks.Sublist F.kinds) (forcing : Bool) (il : ℕ) {k : Kind}
    (hk : k ∈ F.kinds) (hopt : k.opt = true → cols cs k ≠ []) :
    readKind nm forcing ((chunkLines nm cs).map (· ++ ['\n'])) il k =
      colRead rd forcing cs il k := by
  unfold readKind colRead
  have hu : isUsed forcing k ((chunkLines nm cs).map (· ++ ['\n'])) =
      colsUsed forcing k (cols cs k).length := by
    unfold isUsed colsUsed
    rw [kLines_chunks hF cs hsub hk]
    cases k.use <;> simp
  rw [hu, namesRead_ok h hF cs hsub hk hopt, kLines_chunks hF cs hsub hk]
  by_cases hc : colsUsed forcing k (cols cs k).length = true
  · rw [if_pos hc, if_pos hc]
    simp only [List.getElem?_map]
    cases (cols cs k)[il]? with
    | none => rfl
    | some v => exact read_line h hF v hk
  · rw [if_neg hc, if_neg hc]

theorem chunk_noEol (h : NumOk nm rd) (hF : FormatOk F) (cs : List (Chunk K))
    (hsub : ∀ c ∈ cs, c.ks.Sublist F.kinds) : ∀ l ∈ chunkLines nm cs, '\n' ∉ l := by
  intro l hl
  obtain ⟨c, hc, hl⟩ := List.mem_flatMap.1 hl
  rcases List.mem_cons.1 hl with rfl | hl
  · decide
  · obtain ⟨k, hk, rfl⟩ := List.mem_map.1 hl
    have hk' := (hsub c hc).subset hk
    have hn := hF.noEol k hk'
    have key : ∀ fs : List (Str × Str), (∀ f ∈ fs, '\n' ∉ f.1) → '\n' ∉ fieldsText nm c.v fs := by
      intro fs
      induction fs with
      | nil => intro _; simp [fieldsText]
      | cons f r ih =>
        obtain ⟨x, n⟩ := f
        intro hf
        have h1 := hf (x, n) (by simp)
        have h2 := numOk_noEol h n (c.v n)
        have h3 := ih fun f hf' => hf f (by simp [hf'])
        cases r with
        | nil =>
          simp only [fieldsText, List.mem_append, List.mem_cons, not_or]
          exact ⟨h1, by decide, h2⟩
        | cons g r =>
          simp only [fieldsText, List.mem_append, List.mem_cons, not_or]
          exact ⟨h1, by decide, h2, by decide, h3⟩
    rw [lineText, List.mem_append, not_or]
    exact ⟨key _ hn.2, hn.1⟩

theorem nbPoints_chunks (hF : FormatOk F) (cs : List (Chunk K))
    (hsub : ∀ c ∈ cs, c.ks.Sublist F.kinds) :
    nbPoints F ((chunkLines nm cs).map (· ++ ['\n'])) = colPoints F cs := by
  unfold nbPoints colPoints
  have hl : ∀ k ∈ F.kinds, (kLines k ((chunkLines nm cs).map (· ++ ['\n']))).length =
      (cols cs k).length := by
    intro k hk
    rw [kLines_chunks hF cs hsub hk, List.length_map]
  simp only
  rw [hl timeKind hF.time]
  have : (F.kinds.all fun k => (kLines k ((chunkLines nm cs).map (· ++ ['\n']))).length = 0 ||
      (kLines k ((chunkLines nm cs).map (· ++ ['\n']))).length = (cols cs timeKind).length) =
      F.kinds.all fun k => (cols cs k).length = 0 || (cols cs k).length =
        (cols cs timeKind).length := by
    apply Bool.eq_iff_iff.2
    simp only [List.all_eq_true]
    constructor
    · intro hh k hk
      have := hh k hk
      rw [hl k hk] at this
      exact this
    · intro hh k hk
      have := hh k hk
      rw [hl k hk]
      exact this
  rw [this]

/-- `load` in terms of the chunks. -/
theorem load_chunks (h : NumOk nm rd) (hF : FormatOk F) (cs : List (Chunk K))
    (hsub : ∀ c ∈ cs, c.ks.Sublist F.kinds) (forcing : Bool)
    (hopt : ∀ k ∈ F.kinds, k.opt = true → cols cs k ≠ []) :
    load nm F forcing (withEol (chunkLines nm cs)) =
      match colPoints F cs with
      | .error e => .error e
      | .ok nt => allOk (colRow rd F forcing cs) (List.range nt) := by
  have hl : pyLines (withEol (chunkLines nm cs)) = (chunkLines nm cs).map (· ++ ['\n']) := by
    have := pyLines_withEol (chunkLines nm cs) (chunk_noEol h hF cs hsub) []
    simpa [pyLines] using this
  unfold load
  rw [hl]
  dsimp only
  rw [nbPoints_chunks hF cs hsub]
  cases hp : colPoints F cs with
  | error e => rfl
  | ok nt =>
    simp only
    rw [allOk_ok (fun k => namesRead k ((chunkLines nm cs).map (· ++ ['\n']))) Kind.names F.kinds
      fun k hk => namesRead_ok h hF cs hsub hk (hopt k hk)]
    simp only
    apply allOk_congr
    intro il _
    unfold readRow colRow
    rw [allOk_congr _ (colRead rd forcing cs il) F.kinds fun k hk =>
      readKind_chunks h hF cs hsub forcing il hk (hopt k hk)]
    cases allOk (colRead rd forcing cs il) F.kinds <;> rfl

/-! ## Files written by runs -/

/-- The chunk of a complete record. -/
def full (F : Format) (o : Opts) (v : Str → K) : Chunk K := ⟨v, F.kinds.filter (written o)⟩

/-- The chunk of the first `m + 1` lines of a record. -/
def first (F : Format) (o : Opts) (v : Str → K) (m : ℕ) : Chunk K :=
  ⟨v, (F.kinds.filter (written o)).take m⟩

theorem chunkLines_append (a b : List (Chunk K)) :
    chunkLines nm (a ++ b) = chunkLines nm a ++ chunkLines nm b := by
  simp [chunkLines]

theorem saves_eq (o : Opts) (file : Str) (vs : List (Str → K)) :
    saves nm F o file vs = file ++ withEol (chunkLines nm (vs.map (full F o))) := by
  induction vs generalizing file with
  | nil => simp [saves, chunkLines, withEol]
  | cons v vs ih =>
    have : saves nm F o file (v :: vs) = saves nm F o (save nm F o file v) vs := rfl
    rw [this, ih, save, List.append_assoc]
    congr 1
    rw [recText, ← withEol_append]
    rfl

theorem first_eq (s : Solver) (o : Opts) (v : Str → K) (m : ℕ) :
    firstLines nm s o v (m + 1) = withEol (chunkLines nm [first s.format o v m]) := by
  unfold firstLines recLines chunkLines
  rw [List.take_succ_cons, ← List.map_take]
  simp [Chunk.lines, first]

theorem cols_append (a b : List (Chunk K)) (k : Kind) : cols (a ++ b) k = cols a k ++ cols b k := by
  simp [cols]

theorem cols_full (o : Opts) (vs : List (Str → K)) {k : Kind} (hk : k ∈ F.kinds) :
    cols (vs.map (full F o)) k = if written o k then vs else [] := by
  induction vs with
  | nil => simp [cols]
  | cons v vs ih =>
    have e : (v :: vs).map (full F o) = [full F o v] ++ vs.map (full F o) := rfl
    rw [e, cols_append, ih]
    by_cases h : written o k = true
    · simp [cols, full, List.mem_filter, hk, h]
    · simp [cols, full, List.mem_filter, hk, h]

theorem cols_one (c : Chunk K) (k : Kind) : cols [c] k = if k ∈ c.ks then [c.v] else [] := by
  by_cases h : k ∈ c.ks <;> simp [cols, h]

theorem full_sub (o : Opts) (v : Str → K) : (full F o v).ks.Sublist F.kinds := List.filter_sublist

theorem first_sub (o : Opts) (v : Str → K) (m : ℕ) : (first F o v m).ks.Sublist F.kinds :=
  (List.take_sublist _ _).trans List.filter_sublist

/-- The kinds used when all the records have been written with the options `o`. -/
def usedFull (o : Opts) (k : Kind) : Bool :=
  match k.use with
  | .always => true
  | .forcing => o.forcing
  | .forcingOrZero => o.forcing
  | .saved => written o k
  | .never => false

def kindRow (rd : Str → K → K) (o : Opts) (v : Str → K) (k : Kind) : List (Str × K) :=
  if usedFull o k then k.names.map fun n => (n, rounded rd v n)
  else if k.use = .forcingOrZero then k.names.map fun n => (n, 0)
  else []

theorem kindRow_arrays (s : Solver) (o : Opts) (v : Str → K) :
    (s.format.kinds.map (kindRow rd o v)).flatten = s.arrays o (rounded rd v) := by
  obtain ⟨a, b, c⟩ := o
  cases s <;> cases a <;> cases b <;> cases c <;> rfl

/-- One index of the arrays, when the lines at this index have the values `v`. -/
theorem colRow_eq (s : Solver) (o : Opts) (cs : List (Chunk K)) (il : ℕ) (v : Str → K)
    (hu : ∀ k ∈ s.format.kinds, colsUsed o.forcing k (cols cs k).length = usedFull o k)
    (hv : ∀ k ∈ s.format.kinds, usedFull o k = true →
      ∃ u, (cols cs k)[il]? = some u ∧ ∀ n ∈ k.names, u n = v n) :
    colRow rd s.format o.forcing cs il = .ok (s.arrays o (rounded rd v)) := by
  unfold colRow
  rw [allOk_ok (colRead rd o.forcing cs il) (kindRow rd o v)]
  · simp only [kindRow_arrays]
  · intro k hk
    unfold colRead kindRow
    rw [hu k hk]
    by_cases h : usedFull o k = true
    · rw [if_pos h, if_pos h]
      obtain ⟨u, h1, h2⟩ := hv k hk h
      rw [h1]
      simp only [Except.ok.injEq]
      apply List.map_congr_left
      intro n hn
      simp only [rounded, h2 n hn]
    · rw [if_neg h, if_neg h]
      split_ifs <;> rfl

/-- A row is read, or raises an `IndexError`. -/
theorem colRead_cases (forcing : Bool) (cs : List (Chunk K)) (il : ℕ) (k : Kind) :
    (∃ b, colRead rd forcing cs il k = .ok b) ∨ colRead rd forcing cs il k = .error .IndexError := by
  unfold colRead
  split_ifs
  · cases (cols cs k)[il]? with
    | none => right; rfl
    | some v => left; exact ⟨_, rfl⟩
  · left; exact ⟨_, rfl⟩
  · left; exact ⟨_, rfl⟩

theorem allOk_cases {A B : Type*} (f : A → Except Err B) (l : List A) (e : Err)
    (h : ∀ a ∈ l, (∃ b, f a = .ok b) ∨ f a = .error e) :
    (∃ b, allOk f l = .ok b) ∨ allOk f l = .error e := by
  induction l with
  | nil => left; exact ⟨_, rfl⟩
  | cons a l ih =>
    rw [allOk]
    rcases h a (by simp) with ⟨b, hb⟩ | hb
    · rw [hb]
      simp only
      rcases ih fun x hx => h x (by simp [hx]) with ⟨c, hc⟩ | hc
      · rw [hc]; left; exact ⟨_, rfl⟩
      · rw [hc]; right; rfl
    · rw [hb]; right; rfl

theorem colRow_cases (forcing : Bool) (cs : List (Chunk K)) (il : ℕ) :
    (∃ b, colRow rd F forcing cs il = .ok b) ∨ colRow rd F forcing cs il = .error .IndexError := by
  unfold colRow
  rcases allOk_cases (colRead rd forcing cs il) F.kinds .IndexError
    (fun k _ => colRead_cases forcing cs il k) with ⟨b, hb⟩ | hb
  · rw [hb]; left; exact ⟨_, rfl⟩
  · rw [hb]; right; rfl

/-- A used kind without line at the index `il` gives an `IndexError`. -/
theorem colRow_error (forcing : Bool) (cs : List (Chunk K)) (il : ℕ) (k : Kind) (hk : k ∈ F.kinds)
    (hu : colsUsed forcing k (cols cs k).length = true) (hl : (cols cs k).length ≤ il) :
    colRow rd F forcing cs il = .error .IndexError := by
  unfold colRow
  rw [allOk_error (colRead rd forcing cs il) F.kinds .IndexError
    (fun k _ => colRead_cases forcing cs il k) ⟨k, hk, ?_⟩]
  unfold colRead
  rw [if_pos hu, List.getElem?_eq_none hl]

theorem rows_error (forcing : Bool) (cs : List (Chunk K)) (nt il : ℕ) (h : il < nt)
    (he : colRow rd F forcing cs il = .error .IndexError) :
    allOk (colRow rd F forcing cs) (List.range nt) = .error .IndexError :=
  allOk_error _ _ _ (fun il _ => colRow_cases forcing cs il) ⟨il, by simpa using h, he⟩

theorem allOk_range {B : Type*} (f : ℕ → Except Err B) (n : ℕ) (rows : List B)
    (hn : rows.length = n) (h : ∀ (il : ℕ) (hl : il < rows.length), f il = .ok rows[il]) :
    allOk f (List.range n) = .ok rows := by
  subst hn
  cases rows with
  | nil => rfl
  | cons b rows =>
    rw [allOk_ok f (fun il => ((b :: rows)[il]?).getD b)]
    · congr 1
      apply List.ext_getElem
      · simp
      · intro i h1 h2
        simp only [List.length_cons] at h2
        simp [List.getElem?_eq_getElem (l := b :: rows) (i := i) (by simpa using h2)]
    · intro il hil
      have hil' := List.mem_range.1 hil
      rw [h il hil', List.getElem?_eq_getElem hil']
      rfl

theorem time_written (o : Opts) : written o timeKind = true := rfl

/-- The kinds whose last number may be missing in old files are always written. -/
theorem opt_written (s : Solver) : ∀ k ∈ s.format.kinds, k.opt = true → k.wr = .always := by
  cases s <;> decide +kernel

theorem used_of_cols (o : Opts) (k : Kind) (n : ℕ) (h : n ≠ 0 ↔ written o k = true) :
    colsUsed o.forcing k n = usedFull o k := by
  unfold colsUsed usedFull
  cases hk : k.use <;> simp only
  cases hw : written o k <;> simp_all

theorem used_written (s : Solver) (o : Opts) : ∀ k ∈ s.format.kinds, usedFull o k = true →
    written o k = true := by
  obtain ⟨a, b, c⟩ := o
  cases s <;> cases a <;> cases b <;> cases c <;> decide +kernel

theorem time_first (s : Solver) (o : Opts) : ∃ l, s.format.kinds.filter (written o) = timeKind :: l := by
  cases s <;> exact ⟨_, rfl⟩

theorem colPoints_safe (s : Solver) (hs : s.careful) (cs : List (Chunk K)) :
    colPoints s.format cs =
      if ∀ k ∈ s.format.kinds, cols cs k = [] ∨ (cols cs k).length = (cols cs timeKind).length
      then .ok (cols cs timeKind).length
      else if (cols cs timeKind).length = 0 then .error .ValueError
      else .ok ((cols cs timeKind).length - 1) := by
  unfold colPoints
  have : s.format.safe = true := by rcases hs with rfl | rfl <;> rfl
  rw [if_pos this]
  have e : (s.format.kinds.all fun k => (cols cs k).length = 0 ||
      (cols cs k).length = (cols cs timeKind).length) = true ↔
      ∀ k ∈ s.format.kinds, cols cs k = [] ∨ (cols cs k).length = (cols cs timeKind).length := by
    rw [List.all_eq_true]
    simp
  by_cases hh : ∀ k ∈ s.format.kinds, cols cs k = [] ∨
      (cols cs k).length = (cols cs timeKind).length
  · rw [if_pos hh, if_pos (e.2 hh)]
  · rw [if_neg hh, if_neg (fun h => hh (e.1 h))]

theorem colPoints_other (s : Solver) (hs : ¬ s.careful) (cs : List (Chunk K)) :
    colPoints s.format cs = .ok (cols cs timeKind).length := by
  unfold colPoints
  have : s.format.safe = false := by
    cases s <;> first | rfl | exact absurd (Or.inl rfl) hs | exact absurd (Or.inr rfl) hs
  rw [if_neg (by rw [this]; simp)]

end

end Verif.MeansFile
