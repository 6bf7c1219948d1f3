import Verif.Params.Lemmas

/-! # C13 and C14: merging and upgrading parameter trees -/

namespace Verif.Params

variable {V : Type}

/-! ## C13 -/

/-- **C13** The containers of `params |= other` are those of both, and each value is the one of
`params` if it has one, the one of `other` otherwise: existing values are kept, the missing ones
are added, nothing else appears. -/
theorem C13_union (self other : Node V) (hwf : other.WF) :
    ∃ n, ior self (.parameters other) = .ok n ∧ ∀ path,
      (sub n path).isSome = ((sub self path).isSome || (sub other path).isSome) ∧
      ∀ key, value n path key = match value self path key with
        | some v => some v
        | none => value other path key := by
  refine ⟨_, rfl, fun path => ⟨(merge_obs path self other hwf).1, fun key => ?_⟩⟩
  rw [(merge_obs path self other hwf).2 key]
  cases value self path key <;> rfl

/-- **C13** something else than a parameter container: `TypeError`, and nothing is modified
(the result is an error, not a tree). -/
theorem C13_type_error (self : Node V) : ior self .other = .error .typeError := rfl

/-- **C13** merging twice changes nothing more; merging a tree with itself changes nothing. -/
theorem C13_idempotent (self other : Node V) (hwf : other.WF) :
    Same (merge (merge self other) other) (merge self other) ∧
    (self.WF → Same (merge self self) self) := by
  refine ⟨fun path => ?_, fun hs path => ?_⟩
  · have h1 := merge_obs path (merge self other) other hwf
    have h2 := merge_obs path self other hwf
    refine ⟨by rw [h1.1, h2.1]; cases (sub self path).isSome <;> simp, fun key => ?_⟩
    rw [h1.2, h2.2]
    cases value self path key <;> cases value other path key <;> rfl
  · have h1 := merge_obs path self self hs
    refine ⟨by rw [h1.1]; simp, fun key => ?_⟩
    rw [h1.2]
    cases value self path key <;> rfl

/-- **C13** `merge_params(to_params, *others)`: the first tree that has a value for a parameter
gives its value, whatever the number of trees (but for `oper.type_fft`, see
`C13_merge_params_type_fft`). -/
theorem C13_many (self : Node V) (others : List (Node V)) (hwf : ∀ o ∈ others, o.WF)
    (path : List String) (key : String) :
    value (others.foldl merge self) path key =
      ((self :: others).map (fun n => value n path key)).foldr Option.or none := by
  induction others generalizing self with
  | nil => simp
  | cons o others ih =>
    rw [List.foldl_cons, ih _ (fun o' h => hwf o' (by simp [h]))]
    simp only [List.map_cons, List.foldr_cons]
    rw [(merge_obs path self o (hwf o (by simp))).2 key, Option.or_assoc]

/-- **C13** `merge_params`: no other parameter than `oper.type_fft` is modified by the
substitution of old FFT types, and this one becomes "default" exactly if it is an old one. -/
theorem C13_merge_params_type_fft (self : Node PVal) (others : List (Node PVal)) (n : Node PVal)
    (h : mergeParams self others = .ok n) (path : List String) (key : String) :
    let m := others.foldl merge self
    value n path key =
      if path = ["oper"] ∧ key = "type_fft" then
        (value m path key).map (fun v => if isOldFft v = some true then .str "default" else v)
      else value m path key := by
  intro m
  unfold mergeParams at h
  simp only at h
  change (match m.children.find "oper" with
    | none => Except.ok m
    | some oper => match lookupAttr oper.attribs "type_fft" with
      | none => .ok m
      | some method => match isOldFft method with
        | none => .error Err.attributeError
        | some false => .ok m
        | some true => .ok (.mk m.attribs (m.children.update "oper"
          (fun o => o.setAttrib "type_fft" (.str "default"))))) = .ok n at h
  generalize m = m at h ⊢
  have hval : value m ["oper"] "type_fft" =
      (m.children.find "oper").bind (fun c => lookupAttr c.attribs "type_fft") := by
    rw [value_cons]; rfl
  cases ho : m.children.find "oper" with
  | none =>
    simp only [ho, Except.ok.injEq] at h; subst h
    split
    · next hc => obtain ⟨rfl, rfl⟩ := hc; rw [hval, ho]; rfl
    · rfl
  | some oper =>
    simp only [ho] at h
    cases hm : lookupAttr oper.attribs "type_fft" with
    | none =>
      simp only [hm, Except.ok.injEq] at h; subst h
      split
      · next hc => obtain ⟨rfl, rfl⟩ := hc; rw [hval, ho, Option.bind_some, hm]; rfl
      · rfl
    | some method =>
      simp only [hm] at h
      cases hf : isOldFft method with
      | none => simp only [hf] at h; cases h
      | some b =>
        cases b with
        | false =>
          simp only [hf, Except.ok.injEq] at h; subst h
          split
          · next hc =>
            obtain ⟨rfl, rfl⟩ := hc
            rw [hval, ho, Option.bind_some, hm]; simp [hf]
          · rfl
        | true =>
          simp only [hf, Except.ok.injEq] at h; subst h
          cases path with
          | nil => simp [value_nil, Node.attribs]
          | cons t p =>
            rw [value_cons, value_cons]
            simp only [Node.children]
            rw [find_update]
            by_cases ht : t = "oper"
            · subst ht
              simp only [if_true]
              have ho' : m.children.find "oper" = some oper := ho
              simp only [Node.children] at ho' ⊢
              rw [ho']
              simp only [Option.map_some, Option.bind_some]
              cases p with
              | nil =>
                simp only [value_nil]
                obtain ⟨oa, oc⟩ := oper
                simp only [Node.setAttrib, Node.attribs] at hm ⊢
                rw [lookup_setAttr]
                by_cases hk : key = "type_fft"
                · subst hk; simp [hm, hf]
                · simp [hk]
              | cons t' p' =>
                obtain ⟨oa, oc⟩ := oper
                simp [value_cons, Node.setAttrib, Node.children]
            · simp [ht]

/-- Specification: the type of FFT classes that is current: "default" or the name of a class of fluidfft
("fft2d.…", "fft3d.…", "fluidfft.…"). -/
def CurrentFft (s : String) : Prop :=
  s = "default" ∨ ∃ rest : String, s = "fft2d." ++ rest ∨ s = "fft3d." ++ rest ∨ s = "fluidfft." ++ rest

theorem prefix_iff (p s : String) : p.toList.isPrefixOf s.toList = true ↔ ∃ rest : String, s = p ++ rest := by
  rw [List.isPrefixOf_iff_prefix]
  constructor
  · rintro ⟨t, ht⟩
    refine ⟨String.ofList t, ?_⟩
    apply String.toList_injective
    rw [String.toList_append, String.toList_ofList, ht]
  · rintro ⟨rest, rfl⟩
    exact ⟨rest.toList, by rw [String.toList_append]⟩

/-- **C13** `merge_params`: a current type of FFT is kept, any other text (or no value) becomes "default". -/
theorem C13_current_fft_kept (self : Node PVal) (others : List (Node PVal)) (n : Node PVal)
    (h : mergeParams self others = .ok n) (s : String)
    (hs : value (others.foldl merge self) ["oper"] "type_fft" = some (.str s)) :
    (CurrentFft s → value n ["oper"] "type_fft" = some (.str s)) ∧
    (¬ CurrentFft s → value n ["oper"] "type_fft" = some (.str "default")) := by
  have hm := C13_merge_params_type_fft self others n h ["oper"] "type_fft"
  simp only [hs, and_self, if_true, Option.map_some] at hm
  have hiff : isOldFft (.str s) = some true ↔ ¬ CurrentFft s := by
    by_cases he : s.toList = []
    · have : s = "" := String.toList_injective (by simpa using he)
      subst this
      simp only [isOldFft, CurrentFft, String.toList_empty, if_true, true_iff, not_or, not_exists]
      refine ⟨by decide, fun rest => ⟨?_, ?_, ?_⟩⟩ <;>
      · intro e
        have := congrArg String.toList e
        simp at this
    · have h0 : isOldFft (.str s) = some true ↔ (s ≠ "default" ∧
          ¬ ["fft2d.", "fft3d.", "fluidfft."].any (fun p => p.toList.isPrefixOf s.toList) = true) := by
        simp only [isOldFft, if_neg he, Option.some.injEq, decide_eq_true_eq]
      rw [h0]
      simp only [CurrentFft, List.any_cons, List.any_nil, Bool.or_false, Bool.or_eq_true, prefix_iff, ne_eq]
      constructor
      · rintro ⟨h1, h2⟩ (h3 | ⟨r, h3 | h3 | h3⟩)
        · exact h1 h3
        · exact h2 (Or.inl ⟨r, h3⟩)
        · exact h2 (Or.inr (Or.inl ⟨r, h3⟩))
        · exact h2 (Or.inr (Or.inr ⟨r, h3⟩))
      · intro hc
        refine ⟨fun h1 => hc (Or.inl h1), ?_⟩
        rintro (⟨r, h3⟩ | ⟨r, h3⟩ | ⟨r, h3⟩)
        · exact hc (Or.inr ⟨r, Or.inl h3⟩)
        · exact hc (Or.inr ⟨r, Or.inr (Or.inl h3)⟩)
        · exact hc (Or.inr ⟨r, Or.inr (Or.inr h3)⟩)
  constructor
  · intro hc
    rw [hm, if_neg (fun ho => hiff.1 ho hc)]
  · intro hc
    rw [hm, if_pos (hiff.2 hc)]

/-- non-vacuity: a tree of depth three that meets the hypotheses, and a merge in which a value
differs, one is missing and a whole branch is missing. -/
def exA : Node Nat := .mk [("nu", 1)] (.cons "oper" (.mk [("nx", 32)] .nil) .nil)
def exB : Node Nat := .mk [("nu", 2), ("f", 3)]
  (.cons "oper" (.mk [("nx", 64), ("ny", 16)] (.cons "fft" (.mk [("type", 5)] .nil) .nil)) (.cons
    "forcing" (.mk [("enable", 1)] (.cons "random" (.mk [("seed", 7)] .nil) .nil)) .nil))

example : exB.WF := by simp [exB, Node.WF, Forest.WF, Forest.find]
example : value (merge exA exB) [] "nu" = some 1 ∧ value (merge exA exB) [] "f" = some 3 ∧
    value (merge exA exB) ["oper"] "nx" = some 32 ∧
    value (merge exA exB) ["oper"] "ny" = some 16 ∧
    value (merge exA exB) ["oper", "fft"] "type" = some 5 ∧
    value (merge exA exB) ["forcing", "random"] "seed" = some 7 := by decide +kernel

example : isOldFft (.str "FFTWCY") = some true ∧ isOldFft (.str "fft2d.with_fftw1d") = some false ∧
    isOldFft (.str "") = some true ∧ isOldFft .none = some true := by decide +kernel

/-! ## C14 -/

/-- **C14** What `fix_old_params` does, for every tree: `forcing.enable` gets the value of
`FORCING` if there is one (and a container `forcing`), `oper.NO_SHEAR_MODES` the one of
`NO_SHEAR_MODES` if both exist, and every other parameter keeps its value.  No container appears
or disappears. -/
theorem C14_fix_old_params (n : Node V) (path : List String) (key : String) :
    (sub (fixOldParams n) path).isSome = (sub n path).isSome ∧
    value (fixOldParams n) path key =
      if path = ["forcing"] ∧ key = "enable" ∧ (sub n path).isSome then
        match value n [] "FORCING" with
        | some v => some v
        | none => value n path key
      else if path = ["oper"] ∧ key = "NO_SHEAR_MODES" ∧ (value n path key).isSome then
        match value n [] "NO_SHEAR_MODES" with
        | some v => some v
        | none => value n path key
      else value n path key := by
  obtain ⟨a, c⟩ := n
  have hnil : ∀ k, value (.mk a c) [] k = lookupAttr a k := fun k => rfl
  -- look-ups after an update of a child by a function that only changes attributes
  have upd : ∀ (c : Forest V) (t : String) (g : Node V → Node V)
      (_ : ∀ m, (g m).children = m.children) (path : List String),
      (sub (.mk a (c.update t g)) path).isSome = (sub (.mk a c) path).isSome ∧
      ∀ k, value (.mk a (c.update t g)) path k =
        if path = [t] then (c.find t).bind (fun m => lookupAttr (g m).attribs k)
        else value (.mk a c) path k := by
    intro c t g hg path
    cases path with
    | nil => exact ⟨rfl, fun k => by simp [value_nil, Node.attribs]⟩
    | cons s p =>
      simp only [sub_cons, value_cons, Node.children, find_update]
      by_cases hs : s = t
      · subst hs
        simp only [if_true]
        cases hm : c.find s with
        | none => simp
        | some m =>
          simp only [Option.map_some, Option.bind_some]
          cases p with
          | nil => exact ⟨rfl, fun k => by simp [value_nil]⟩
          | cons t' p' =>
            refine ⟨by rw [sub_cons, sub_cons, hg], fun k => ?_⟩
            simp only [value_cons, hg]
            simp
      · have hne : ¬ (s :: p = [t]) := fun h => hs (List.cons.inj h).1
        simp [hs]
  have hsetA : ∀ (k : String) (v : V) (m : Node V), (m.setAttrib k v).children = m.children := by
    intro k v m; cases m; rfl
  have hsetE : ∀ (k : String) (v : V) (m : Node V), (m.setExisting k v).children = m.children := by
    intro k v m; cases m; simp only [Node.setExisting]; split <;> rfl
  -- the first fix
  have hF : ∃ c', fixForcing (.mk a c) = .mk a c' ∧
      (∀ path, (sub (.mk a c') path).isSome = (sub (.mk a c) path).isSome) ∧
      ∀ path k, value (.mk a c') path k =
        if path = ["forcing"] ∧ k = "enable" ∧ (sub (.mk a c) path).isSome then
          match lookupAttr a "FORCING" with
          | some v => some v
          | none => value (.mk a c) path k
        else value (.mk a c) path k := by
    simp only [fixForcing]
    cases hFo : lookupAttr a "FORCING" with
    | none => exact ⟨c, rfl, fun _ => rfl, fun path k => by simp⟩
    | some v =>
      refine ⟨_, rfl, fun path => (upd c "forcing" _ (hsetA "enable" v) path).1, fun path k => ?_⟩
      rw [(upd c "forcing" _ (hsetA "enable" v) path).2 k]
      by_cases hp : path = ["forcing"]
      · subst hp
        simp only [if_true, true_and, sub_cons, value_cons, Node.children]
        cases hc : c.find "forcing" with
        | none => simp
        | some m =>
          obtain ⟨ma, mc⟩ := m
          simp only [Option.bind_some, Node.setAttrib, Node.attribs, lookup_setAttr, sub,
            Option.isSome_some, and_true, value_nil]
      · simp [hp]
  obtain ⟨c', e, hs, hv⟩ := hF
  unfold fixOldParams
  rw [e]
  simp only [fixShear, hnil]
  cases hN : lookupAttr a "NO_SHEAR_MODES" with
  | none =>
    refine ⟨hs path, ?_⟩
    simp only
    rw [hv path key]
    cases lookupAttr a "FORCING" <;> simp
  | some v =>
    simp only
    refine ⟨by rw [(upd c' "oper" _ (hsetE "NO_SHEAR_MODES" v) path).1, hs], ?_⟩
    rw [(upd c' "oper" _ (hsetE "NO_SHEAR_MODES" v) path).2 key]
    by_cases hp : path = ["oper"]
    · subst hp
      have hvo := hv ["oper"] key
      have hne : ¬ (["oper"] = ["forcing"] ∧ key = "enable" ∧
          (sub (.mk a c) ["oper"]).isSome = true) := by
        intro h; simp at h
      rw [if_neg hne] at hvo
      simp only [if_true, true_and]
      rw [if_neg (by intro h; simp at h)]
      rw [← hvo, value_cons]
      simp only [Node.children]
      rcases Option.eq_none_or_eq_some (c'.find "oper") with hc | ⟨m, hc⟩
      · simp [hc]
      · obtain ⟨ma, mc⟩ := m
        simp only [hc, Option.bind_some, value_nil, Node.attribs, Node.setExisting]
        cases hex : lookupAttr ma "NO_SHEAR_MODES" with
        | none =>
          simp only [Option.isSome_none, Bool.false_eq_true, if_false]
          by_cases hk : key = "NO_SHEAR_MODES"
          · subst hk; simp [hex]
          · simp [hk]
        | some w =>
          simp only [Option.isSome_some, if_true]
          rw [lookup_setAttr]
          by_cases hk : key = "NO_SHEAR_MODES"
          · subst hk; simp [hex]
          · simp [hk]
    · rw [if_neg hp, hv path key]
      simp [hp]

/-- **C14** `fix_old_params` is idempotent. -/
theorem C14_idempotent (n : Node V) : Same (fixOldParams (fixOldParams n)) (fixOldParams n) := by
  intro path
  refine ⟨(C14_fix_old_params (fixOldParams n) path "").1, fun key => ?_⟩
  have top : ∀ k, value (fixOldParams n) [] k = value n [] k := by
    intro k
    rw [(C14_fix_old_params n [] k).2]; simp
  rw [(C14_fix_old_params (fixOldParams n) path key).2]
  simp only [top]
  have h1 := C14_fix_old_params n path key
  by_cases hp : path = ["forcing"] ∧ key = "enable" ∧ (sub n path).isSome = true
  · rw [if_pos ⟨hp.1, hp.2.1, by rw [h1.1]; exact hp.2.2⟩, h1.2, if_pos hp]
    cases value n [] "FORCING" <;> rfl
  · rw [if_neg (by rw [h1.1]; exact hp)]
    split
    · next hq =>
      cases hN : value n [] "NO_SHEAR_MODES" with
      | none => rfl
      | some v =>
        simp only
        rw [h1.2, if_neg hp]
        have hq' : path = ["oper"] ∧ key = "NO_SHEAR_MODES" ∧ (value n path key).isSome = true := by
          refine ⟨hq.1, hq.2.1, ?_⟩
          have h3 := hq.2.2
          rw [h1.2, if_neg hp] at h3
          by_cases hc : path = ["oper"] ∧ key = "NO_SHEAR_MODES" ∧ (value n path key).isSome = true
          · exact hc.2.2
          · rw [if_neg hc] at h3; exact h3
        rw [if_pos hq', hN]
    · rfl

/-- **C14** a tree without deprecated entries is not modified. -/
theorem C14_new_params_untouched (n : Node V) (h1 : value n [] "FORCING" = none)
    (h2 : value n [] "NO_SHEAR_MODES" = none) : Same (fixOldParams n) n := by
  intro path
  refine ⟨(C14_fix_old_params n path "").1, fun key => ?_⟩
  rw [(C14_fix_old_params n path key).2, h1, h2]
  simp

/-- non-vacuity -/
def exOld : Node Nat := .mk [("FORCING", 1), ("NO_SHEAR_MODES", 1)]
  (.cons "oper" (.mk [("NO_SHEAR_MODES", 0)] .nil) (.cons "forcing" (.mk [("type", 5)] .nil) .nil))

example : value (fixOldParams exOld) ["forcing"] "enable" = some 1 ∧
    value (fixOldParams exOld) ["oper"] "NO_SHEAR_MODES" = some 1 ∧
    value (fixOldParams exOld) ["forcing"] "type" = some 5 := by decide +kernel

end Verif.Params
