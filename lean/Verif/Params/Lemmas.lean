import Verif.Params.Spec

namespace Verif.Params

variable {V : Type}

theorem lookup_append (a b : List (String × V)) (k : String) :
    lookupAttr (a ++ b) k = (lookupAttr a k).or (lookupAttr b k) := by
  induction a with
  | nil => simp [lookupAttr]
  | cons p a ih =>
    obtain ⟨k', v⟩ := p
    simp only [List.cons_append, lookupAttr]
    split
    · simp
    · exact ih

theorem lookup_filter (a : List (String × V)) (q : String → Bool) (k : String) (h : q k = true) :
    lookupAttr (a.filter (fun p => q p.1)) k = lookupAttr a k := by
  induction a with
  | nil => rfl
  | cons p a ih =>
    obtain ⟨k', v⟩ := p
    by_cases hk : k' = k
    · subst hk; simp [lookupAttr, h]
    · by_cases hq : q k' = true
      · simp [lookupAttr, hk, hq, ih]
      · simp [lookupAttr, hk, hq, ih]

theorem lookup_addMissing (a b : List (String × V)) (k : String) :
    lookupAttr (addMissingAttribs a b) k = (lookupAttr a k).or (lookupAttr b k) := by
  unfold addMissingAttribs
  rw [lookup_append]
  cases h : lookupAttr a k with
  | some v => simp
  | none =>
    simp only [Option.none_or]
    exact lookup_filter b (fun k => (lookupAttr a k).isNone) k (by simp [h])

theorem find_append (f g : Forest V) (k : String) :
    (f.append g).find k = (f.find k).or (g.find k) := by
  match f with
  | .nil => simp [Forest.append, Forest.find]
  | .cons t n rest =>
    simp only [Forest.append, Forest.find]
    split
    · simp
    · exact find_append rest g k

theorem find_missing (c1 f : Forest V) (k : String) :
    (missingChildren c1 f).find k =
      if (c1.find k).isNone then (f.find k).map (fun n => Node.mk n.attribs .nil) else none := by
  match f with
  | .nil => simp [missingChildren, Forest.find]
  | .cons t n rest =>
    have ih := find_missing c1 rest k
    by_cases ht : t = k
    · subst ht
      by_cases hc : (c1.find t).isNone = true
      · simp [missingChildren, hc, Forest.find]
      · simp only [missingChildren, hc]
        rw [if_neg (by simp)] 
        rw [ih]; simp [hc]
    · by_cases hc : (c1.find t).isNone = true
      · simp only [missingChildren, hc, if_true, Forest.find, ht, if_false]; exact ih
      · simp only [missingChildren, hc, Forest.find, ht, if_false]; exact ih

theorem find_update (f : Forest V) (k k' : String) (g : Node V → Node V) :
    (f.update k g).find k' = if k' = k then (f.find k').map g else f.find k' := by
  match f with
  | .nil => simp [Forest.update, Forest.find]
  | .cons t n rest =>
    simp only [Forest.update]
    by_cases h1 : t = k
    · subst h1
      simp only [if_true, Forest.find]
      by_cases h2 : t = k'
      · subst h2; simp
      · simp only [h2, if_false]
        rw [if_neg (fun h => h2 h.symm)]
    · simp only [h1, if_false, Forest.find]
      by_cases h2 : t = k'
      · subst h2; simp [h1]
      · simp only [h2, if_false]; exact find_update rest k k' g

theorem find_mergeChildren (c1 c2 : Forest V) (hwf : c2.WF) (k : String) :
    (mergeChildren c1 c2).find k =
      match c2.find k with
      | none => c1.find k
      | some n2 => (c1.find k).map (fun n1 => merge n1 n2) := by
  match c2 with
  | .nil => simp [mergeChildren, Forest.find]
  | .cons t n2 rest =>
    rw [Forest.WF] at hwf
    rw [mergeChildren, find_mergeChildren _ rest hwf.2.2 k, find_update]
    by_cases h : t = k
    · subst h
      simp [hwf.1, Forest.find]
    · simp only [Forest.find, h, if_false]
      rw [if_neg (fun h' => h h'.symm)]

theorem find_WF (c : Forest V) (h : c.WF) (t : String) (n : Node V) (hf : c.find t = some n) :
    n.WF := by
  match c with
  | .nil => simp [Forest.find] at hf
  | .cons t' n' rest =>
    rw [Forest.WF] at h
    simp only [Forest.find] at hf
    split at hf
    · cases hf; exact h.2.1
    · exact find_WF rest h.2.2 t n hf

theorem children_WF {n : Node V} (h : n.WF) : n.children.WF := by
  cases n; rw [Node.WF] at h; exact h

theorem merge_children_find (a b : Node V) (hwf : b.WF) (t : String) :
    (merge a b).children.find t =
      match a.children.find t, b.children.find t with
      | none, none => none
      | some n, none => some n
      | none, some m => some (merge (.mk m.attribs .nil) m)
      | some n, some m => some (merge n m) := by
  obtain ⟨a1, c1⟩ := a
  obtain ⟨a2, c2⟩ := b
  rw [Node.WF] at hwf
  simp only [merge, Node.children]
  rw [find_mergeChildren _ _ hwf, find_append, find_missing]
  cases h1 : c1.find t <;> cases h2 : c2.find t <;> simp

theorem merge_attribs (a b : Node V) (k : String) :
    lookupAttr (merge a b).attribs k = (lookupAttr a.attribs k).or (lookupAttr b.attribs k) := by
  obtain ⟨a1, c1⟩ := a
  obtain ⟨a2, c2⟩ := b
  simp only [merge, Node.attribs]
  exact lookup_addMissing _ _ _

theorem sub_cons (n : Node V) (t : String) (p : List String) :
    sub n (t :: p) = (n.children.find t).bind (fun c => sub c p) := by
  rw [sub]; cases n.children.find t <;> rfl

theorem value_cons (n : Node V) (t : String) (p : List String) (k : String) :
    value n (t :: p) k = (n.children.find t).bind (fun c => value c p k) := by
  unfold value; rw [sub_cons]; cases n.children.find t <;> rfl

theorem value_nil (n : Node V) (k : String) : value n [] k = lookupAttr n.attribs k := rfl

/-- containers and values of a union -/
theorem merge_obs (path : List String) : ∀ (a b : Node V), b.WF →
    (sub (merge a b) path).isSome = ((sub a path).isSome || (sub b path).isSome) ∧
    ∀ k, value (merge a b) path k = (value a path k).or (value b path k) := by
  induction path with
  | nil =>
    intro a b _
    refine ⟨by simp [sub], fun k => ?_⟩
    simp only [value_nil]; exact merge_attribs a b k
  | cons t p ih =>
    intro a b hwf
    simp only [sub_cons, value_cons]
    rw [merge_children_find a b hwf t]
    cases h1 : a.children.find t with
    | none =>
      cases h2 : b.children.find t with
      | none => simp
      | some m =>
        have hm := find_WF _ (children_WF hwf) t m h2
        have := ih (.mk m.attribs .nil) m hm
        have empty : ∀ (p : List String) (m : Node V),
            ((sub (.mk m.attribs .nil) p).isSome || (sub m p).isSome) = (sub m p).isSome ∧
            ∀ k, (value (.mk m.attribs .nil) p k).or (value m p k) = value m p k := by
          intro p m
          cases p with
          | nil =>
            refine ⟨by simp [sub], fun k => ?_⟩
            simp only [value_nil, Node.attribs]
            cases m with
            | mk at' c => simp
          | cons t p =>
            refine ⟨by simp [sub_cons, Node.children, Forest.find], fun k => ?_⟩
            simp [value_cons, Node.children, Forest.find]
        simp only [Option.bind_some, Option.bind_none, Option.none_or]
        refine ⟨?_, fun k => ?_⟩
        · rw [this.1, (empty p m).1]; simp
        · rw [this.2 k, (empty p m).2 k]
    | some n =>
      cases h2 : b.children.find t with
      | none => simp
      | some m =>
        have hm := find_WF _ (children_WF hwf) t m h2
        exact ih n m hm

theorem lookup_setAttr (l : List (String × V)) (k k' : String) (v : V) :
    lookupAttr (setAttr l k v) k' = if k' = k then some v else lookupAttr l k' := by
  induction l with
  | nil =>
    simp only [setAttr, lookupAttr]
    by_cases h : k' = k
    · simp [h]
    · simp [h, Ne.symm h]
  | cons p l ih =>
    obtain ⟨k0, v0⟩ := p
    simp only [setAttr]
    by_cases h0 : k0 = k
    · subst h0
      simp only [if_true, lookupAttr]
      by_cases h : k' = k0
      · simp [h]
      · simp [h, Ne.symm h]
    · simp only [h0, if_false, lookupAttr]
      by_cases h1 : k0 = k'
      · subst h1; simp [h0]
      · simp only [h1, if_false]; exact ih

end Verif.Params
