import Verif.StateInit.Lemmas

/-! # C10, C11: initialisation of the state from keyword arrays -/

namespace Verif.StateInit

variable {V : Type}

/-! ## C10 -/

/-- **C10** (spectral, base class) for known keys: each given variable gets the given array,
all the others zero, and nothing else changes. -/
theorem C10_spect_sets_exactly (o : Ops V) (keys : List String) (s : Fields V) (kw : Kw V)
    (hn : (kw.map (·.1)).Nodup) (hall : ∀ p ∈ kw, p.1 ∈ keys) :
    (baseInitSpect o keys s kw).2 = none ∧
    (∀ k, (baseInitSpect o keys s kw).1.spect k = expected o.zero kw k) ∧
    (baseInitSpect o keys s kw).1.phys = s.phys := by
  refine ⟨(spectLoop_none _ _ _).2 hall, ?_, ?_⟩
  · intro k
    unfold expected baseInitSpect
    by_cases h : ∃ v, (k, v) ∈ kw
    · obtain ⟨v, hv⟩ := h
      rw [spectLoop_mem _ _ _ hn hall k v hv, find_of_mem hn hv]
    · have h' : ∀ p ∈ kw, p.1 ≠ k := by
        rintro ⟨k', v⟩ hp rfl
        exact h ⟨v, hp⟩
      rw [spectLoop_not_mem _ _ _ _ h', find_of_not_mem h']
  · rw [baseInitSpect, spectLoop_phys]

/-- **C10** (physical, base class) -/
theorem C10_phys_sets_exactly (o : Ops V) (keys : List String) (s : Fields V) (kw : Kw V)
    (hn : (kw.map (·.1)).Nodup) (hall : ∀ p ∈ kw, p.1 ∈ keys) :
    (baseInitPhys o keys s kw).2 = none ∧
    (∀ k, (baseInitPhys o keys s kw).1.phys k = expected o.zero kw k) := by
  refine ⟨(physLoop_none _ _ _).2 hall, ?_⟩
  intro k
  unfold expected baseInitPhys
  by_cases h : ∃ v, (k, v) ∈ kw
  · obtain ⟨v, hv⟩ := h
    rw [physLoop_mem _ _ _ hn hall k v hv, find_of_mem hn hv]
  · have h' : ∀ p ∈ kw, p.1 ≠ k := by
      rintro ⟨k', v⟩ hp rfl
      exact h ⟨v, hp⟩
    rw [physLoop_not_mem _ _ _ _ h', find_of_not_mem h']

/-- **C10** an unknown key raises `ValueError`, naming the first unknown key. -/
theorem C10_unknown_key_raises (o : Ops V) (keys : List String) (s : Fields V)
    (before after : Kw V) (k : String) (v : V) (hb : ∀ p ∈ before, p.1 ∈ keys) (hk : k ∉ keys) :
    (baseInitSpect o keys s (before ++ (k, v) :: after)).2 = some (.valueError k) ∧
    (baseInitPhys o keys s (before ++ (k, v) :: after)).2 = some (.valueError k) := by
  unfold baseInitSpect baseInitPhys
  generalize ({ s with spect := fun _ => o.zero } : Fields V) = s1
  generalize ({ s with phys := fun _ => o.zero } : Fields V) = s2
  constructor
  · induction before generalizing s1 with
    | nil => simp [spectLoop, hk]
    | cons p before ih =>
      obtain ⟨k', v'⟩ := p
      have := hb (k', v') (by simp)
      simp only [List.cons_append, spectLoop, this, not_true, if_false]
      exact ih (fun p hp => hb p (by simp [hp])) _
  · induction before generalizing s2 with
    | nil => simp [physLoop, hk]
    | cons p before ih =>
      obtain ⟨k', v'⟩ := p
      have := hb (k', v') (by simp)
      simp only [List.cons_append, physLoop, this, not_true, if_false]
      exact ih (fun p hp => hb p (by simp [hp])) _

/-- **C10** `state[key] = value`: stored under this key only, `ValueError` for an unknown key.  -/
theorem C10_setitem (ks kp : List String) (s : Fields V) (k : String) (v : V) :
    (k ∉ ks → k ∉ kp → setItem ks kp s k v = (s, some (.valueError k))) ∧
    (k ∈ ks → setItem ks kp s k v = ({ s with spect := fun k' => if k' = k then v else s.spect k' },
      none)) ∧
    (k ∉ ks → k ∈ kp → setItem ks kp s k v =
      ({ s with phys := fun k' => if k' = k then v else s.phys k' }, none)) := by
  refine ⟨fun h1 h2 => by simp [setItem, h1, h2], fun h => ?_, fun h1 h2 => ?_⟩
  · simp [setItem, h, Fields.setSpect]; rfl
  · simp [setItem, h1, h2, Fields.setPhys]; rfl

/-- **C10** (ns2d) after an initialisation from one of the fields known by the solver, the
physical arrays are those computed from the spectral ones. -/
theorem C10_ns2d_consistent (o : Ops V) (s : Fields V) (k : String) (v : V)
    (hk : k = "rot_fft" ∨ k = "ux_fft" ∨ k = "uy_fft") :
    let s' := (ns2dInitSpect o s [(k, v)]).1
    (ns2dInitSpect o s [(k, v)]).2 = none ∧
    s'.phys "rot" = o.un "ifft" (s'.spect "rot_fft") ∧
    s'.phys "ux" = o.un "ifft" (o.un "vecfft_from_rotfft.ux" (s'.spect "rot_fft")) ∧
    s'.phys "uy" = o.un "ifft" (o.un "vecfft_from_rotfft.uy" (s'.spect "rot_fft")) := by
  rcases hk with rfl | rfl | rfl <;>
    simp [ns2dInitSpect, ns2dFromRot, ns2dFromUx, ns2dFromUy, ns2dPhysFromSpect, Fields.setPhys,
      Fields.setSpect, set]

/-- **C10** (finding) the base method leaves the physical arrays of the previous state: after
a successful `init_statespect_from` with two keywords the two representations differ, until
`statephys_from_statespect` is called. -/
theorem C10_representations_violated :
    ¬ ∀ (o : Ops Term) (s : Fields Term) (kw : Kw Term),
      (plateInitSpect o s kw).2 = none →
      (plateInitSpect o s kw).1.phys "w" = o.un "ifft" ((plateInitSpect o s kw).1.spect "w_fft") := by
  intro h
  have := h symOps ⟨fun _ => .zero, fun _ => .zero⟩
    [("w_fft", .var "w"), ("z_fft", .var "z")] (by decide +kernel)
  revert this
  decide +kernel

/-- **C10** (finding) ns2d's `init_statephys_from(ux=...)` neither stores `ux` nor sets the other
variables to zero. -/
theorem C10_ns2d_phys_from_ux_violated (o : Ops V) (s : Fields V) (ux : V) :
    (ns2dInitPhys o s [("ux", ux)]).2 = none ∧
    (ns2dInitPhys o s [("ux", ux)]).1.phys "ux" = s.phys "ux" ∧
    (ns2dInitPhys o s [("ux", ux)]).1.phys "uy" = s.phys "uy" := by
  simp [ns2dInitPhys, ns2dPhysFromUx, Fields.setPhys, set]

/-- **C10** (finding) on the sphere (`sphere.sw1l`), initialising from `rot_sh` keeps the previous
`div_sh` and `eta_sh`. -/
theorem C10_sphere_other_variables_violated (o : Ops V) (s : Fields V) (rot : V) :
    (sphereInitSpect o ["rot_sh", "div_sh", "eta_sh"] s [("rot_sh", rot)]).2 = none ∧
    (sphereInitSpect o ["rot_sh", "div_sh", "eta_sh"] s [("rot_sh", rot)]).1.spect "div_sh"
      = s.spect "div_sh" ∧
    (sphereInitSpect o ["rot_sh", "div_sh", "eta_sh"] s [("rot_sh", rot)]).1.spect "eta_sh"
      = s.spect "eta_sh" := by
  simp [sphereInitSpect, Fields.setSpect, set]

/-- non-vacuity of the hypotheses -/
example : ((([("b", 1), ("a", 2)] : Kw Nat).map (·.1)).Nodup) ∧
    ∀ p ∈ ([("b", 1), ("a", 2)] : Kw Nat), p.1 ∈ ["a", "b", "c"] := by decide

/-! ## C11 -/

/-- **C11** (ns2d) -/
theorem C11_ns2d_keeps_all : KeepsAll ns2dKeysSpect (ns2dInitSpect symOps) := by
  intro s keys hn hok
  have hb := base_keeps ns2dKeysSpect s keys hn
  match keys with
  | [] => intro k hk; cases hk
  | [key] =>
    revert hok hb
    simp only [symKw, List.map_cons, List.map_nil, ns2dInitSpect]
    split
    · next h =>
      intro _ _ k hk
      simp only [List.mem_singleton] at hk; subst hk
      exact ⟨"rot_fft", by simp [ns2dKeysSpect], by
        simp [ns2dFromRot, ns2dPhysFromSpect, Fields.setPhys, Fields.setSpect, set, symOps,
          Term.mentions]⟩
    · split
      · intro _ _ k hk
        simp only [List.mem_singleton] at hk; subst hk
        exact ⟨"rot_fft", by simp [ns2dKeysSpect], by
          simp [ns2dFromUx, ns2dFromRot, ns2dPhysFromSpect, Fields.setPhys, Fields.setSpect, set,
            symOps, Term.mentions]⟩
      · split
        · intro _ _ k hk
          simp only [List.mem_singleton] at hk; subst hk
          exact ⟨"rot_fft", by simp [ns2dKeysSpect], by
            simp [ns2dFromUy, ns2dFromRot, ns2dPhysFromSpect, Fields.setPhys, Fields.setSpect, set,
              symOps, Term.mentions]⟩
        · intro hok hb; exact hb hok
  | a :: b :: rest => exact hb hok

/-- **C11** (ns2d.with_uxuy) -/
theorem C11_with_uxuy_keeps_all : KeepsAll uxuyKeysSpect (uxuyInitSpect symOps) := by
  intro s keys hn hok
  have hb := base_keeps uxuyKeysSpect s keys hn
  match keys with
  | [] => intro k hk; cases hk
  | [key] =>
    revert hok hb
    simp only [symKw, List.map_cons, List.map_nil, uxuyInitSpect]
    split
    · intro _ _ k hk
      simp only [List.mem_singleton] at hk; subst hk
      exact ⟨"ux_fft", by simp [uxuyKeysSpect], by
        simp [uxuyFromRot, uxuyPhysFromSpect, Fields.setPhys, Fields.setSpect, set, symOps,
          Term.mentions]⟩
    · split
      · intro _ _ k hk
        simp only [List.mem_singleton] at hk; subst hk
        exact ⟨"ux_fft", by simp [uxuyKeysSpect], by
          simp [uxuyFromRot, uxuyPhysFromSpect, Fields.setPhys, Fields.setSpect, set,
            symOps, Term.mentions]⟩
      · split
        · intro _ _ k hk
          simp only [List.mem_singleton] at hk; subst hk
          exact ⟨"ux_fft", by simp [uxuyKeysSpect], by
            simp [uxuyFromRot, uxuyPhysFromSpect, Fields.setPhys, Fields.setSpect, set,
              symOps, Term.mentions]⟩
        · intro hok hb; exact hb hok
  | [a, b] =>
    revert hok hb
    simp only [symKw, List.map_cons, List.map_nil, uxuyInitSpect]
    split
    · next heq => simp at heq
    · next heq =>
      simp only [List.cons.injEq, Prod.mk.injEq, and_true] at heq
      obtain ⟨⟨rfl, rfl⟩, rfl, rfl⟩ := heq
      intro _ _ k hk
      simp only [List.mem_cons, List.not_mem_nil, or_false] at hk
      refine ⟨k, by simpa [uxuyKeysSpect] using hk, ?_⟩
      rcases hk with rfl | rfl <;>
        simp [uxuyPhysFromSpect, Fields.setPhys, Fields.setSpect, set, Term.mentions]
    · next heq =>
      simp only [List.cons.injEq, Prod.mk.injEq, and_true] at heq
      obtain ⟨⟨rfl, rfl⟩, rfl, rfl⟩ := heq
      intro _ _ k hk
      simp only [List.mem_cons, List.not_mem_nil, or_false] at hk
      refine ⟨k, by simpa [uxuyKeysSpect, or_comm] using hk, ?_⟩
      rcases hk with rfl | rfl <;>
        simp [uxuyPhysFromSpect, Fields.setPhys, Fields.setSpect, set, Term.mentions]
    · intro hok hb; exact hb hok
  | a :: b :: c :: rest =>
    revert hok
    simp only [symKw, List.map_cons, uxuyInitSpect]
    intro hok; exact hb hok

/-- **C11** (ns3d, ns3d.strat, ns3d.bouss) for every list of state variables that contains the
three velocity components. -/
theorem C11_ns3d_keeps_all (keysState : List String) (hx : "vx_fft" ∈ keysState)
    (hy : "vy_fft" ∈ keysState) (hz : "vz_fft" ∈ keysState) :
    KeepsAll keysState (ns3dInitSpect symOps keysState) := by
  intro s keys hn hok
  have hb := base_keeps keysState s keys hn
  match keys with
  | [] => intro k hk; cases hk
  | [key] =>
    revert hok hb
    simp only [symKw, List.map_cons, List.map_nil, ns3dInitSpect]
    split
    · intro _ _ k hk
      simp only [List.mem_singleton] at hk; subst hk
      exact ⟨"vx_fft", hx, by
        simp [baseInitSpect, spectLoop, hx, hy, Fields.setSpect, set, symOps, Term.mentions]⟩
    · split
      · intro _ _ k hk
        simp only [List.mem_singleton] at hk; subst hk
        exact ⟨"vx_fft", hx, by
          simp [baseInitSpect, spectLoop, hx, hy, Fields.setSpect, set, symOps, Term.mentions]⟩
      · split
        · intro _ _ k hk
          simp only [List.mem_singleton] at hk; subst hk
          exact ⟨"vx_fft", hx, by
            simp [baseInitSpect, spectLoop, hx, hy, hz, Fields.setSpect, set, symOps,
              Term.mentions]⟩
        · split
          · intro _ _ k hk
            simp only [List.mem_singleton] at hk; subst hk
            exact ⟨"vx_fft", hx, by
              simp [baseInitSpect, spectLoop, hx, hy, hz, Fields.setSpect, set, symOps,
                Term.mentions]⟩
          · intro hok hb; exact hb hok
  | a :: b :: rest => exact hb hok

/-- **C11** (ns2d.bouss, partial) every set of keywords but the pairs other than
(`rot_fft`, `b_fft`) -/
theorem C11_bouss_keeps_all_partial (s : Fields Term) (keys : List String) (hn : keys.Nodup)
    (h2 : keys.length = 2 → "rot_fft" ∈ keys ∧ "b_fft" ∈ keys)
    (hok : (boussInitSpect symOps s (symKw keys)).2 = none) (k : String) (hk : k ∈ keys) :
    ∃ k' ∈ rotbKeysSpect, ((boussInitSpect symOps s (symKw keys)).1.spect k').mentions k := by
  unfold boussInitSpect at hok ⊢
  have hlen : (symKw keys).length = keys.length := by simp [symKw]
  rw [hlen] at hok ⊢
  by_cases h : keys.length = 2
  · obtain ⟨hr, hb⟩ := h2 h
    rw [if_pos h]
    cases e1 : lookup (symKw keys) "rot_fft" with
    | none => exact absurd hr (lookup_sym_none e1)
    | some rot =>
      cases e2 : lookup (symKw keys) "b_fft" with
      | none => exact absurd hb (lookup_sym_none e2)
      | some b =>
        obtain ⟨_, rfl⟩ := lookup_sym e1
        obtain ⟨_, rfl⟩ := lookup_sym e2
        rcases mem_of_two h (by decide) hr hb hk with rfl | rfl
        · exact ⟨"rot_fft", by simp [rotbKeysSpect], by
            simp [fromRotb, rotbPhysFromSpect, ns2dPhysFromSpect, Fields.setPhys, Fields.setSpect,
              set, symOps, Term.mentions]⟩
        · exact ⟨"b_fft", by simp [rotbKeysSpect], by
            simp [fromRotb, rotbPhysFromSpect, ns2dPhysFromSpect, Fields.setPhys, Fields.setSpect,
              set, symOps, Term.mentions]⟩
  · rw [if_neg h] at hok ⊢
    exact base_keeps rotbKeysSpect s keys hn hok k hk

/-- **C11** (ns2d.bouss, finding) e.g. `init_statespect_from(ux_fft=..., uy_fft=...)` returns
normally and does nothing. -/
theorem C11_bouss_violated (o : Ops V) (s : Fields V) (a b : V) :
    boussInitSpect o s [("ux_fft", a), ("uy_fft", b)] = (s, none) := by
  simp [boussInitSpect, lookup]

theorem C11_bouss_not_keeps_all : ¬ KeepsAll rotbKeysSpect (boussInitSpect symOps) := by
  intro h
  have := h ⟨fun _ => .zero, fun _ => .zero⟩ ["ux_fft", "uy_fft"] (by decide) (by
    simp [symKw, boussInitSpect, lookup]) "ux_fft" (by simp)
  obtain ⟨k', _, hm⟩ := this
  have e := C11_bouss_violated symOps ⟨fun _ => .zero, fun _ => .zero⟩ (.var "ux_fft")
    (.var "uy_fft")
  simp only [symKw, List.map_cons, List.map_nil] at hm
  rw [e] at hm
  exact hm

/-- **C11** (ns2d.strat, partial) every set of keywords but a single one that is none of
`rot_fft`, `ap_fft`, `am_fft`, `ux_fft`, `uy_fft`. -/
theorem C11_strat_keeps_all_partial (s : Fields Term) (keys : List String) (hn : keys.Nodup)
    (h1 : ∀ k, keys = [k] → k ∈ ["rot_fft", "ap_fft", "am_fft", "ux_fft", "uy_fft"])
    (hok : (stratInitSpect symOps s (symKw keys)).2 = none) (k : String) (hk : k ∈ keys) :
    ∃ k' ∈ rotbKeysSpect, ((stratInitSpect symOps s (symKw keys)).1.spect k').mentions k := by
  match keys with
  | [] => cases hk
  | [key] =>
    have hkey := h1 key rfl
    simp only [List.mem_singleton] at hk
    subst hk
    refine ⟨"rot_fft", by simp [rotbKeysSpect], ?_⟩
    simp only [List.mem_cons, List.not_mem_nil, or_false] at hkey
    rcases hkey with rfl | rfl | rfl | rfl | rfl <;>
      simp [symKw, stratInitSpect, fromRotb, rotbPhysFromSpect, ns2dPhysFromSpect, Fields.setPhys,
        Fields.setSpect, set, symOps, Term.mentions]
  | a :: b :: rest =>
    have hlen : (symKw (a :: b :: rest)).length = (a :: b :: rest).length := by simp [symKw]
    have hdef : stratInitSpect symOps s (symKw (a :: b :: rest)) =
        stratInitMany symOps s (symKw (a :: b :: rest)) := rfl
    unfold stratInitMany at hdef
    rw [hdef, hlen] at hok ⊢
    by_cases h : (a :: b :: rest).length = 2
    · rw [if_pos h] at hok ⊢
      cases e1 : lookup (symKw (a :: b :: rest)) "rot_fft" with
      | none =>
        rw [e1] at hok
        exact base_keeps rotbKeysSpect s _ hn hok k hk
      | some rot =>
        cases e2 : lookup (symKw (a :: b :: rest)) "b_fft" with
        | none =>
          rw [e1, e2] at hok
          exact base_keeps rotbKeysSpect s _ hn hok k hk
        | some bb =>
          obtain ⟨hr, rfl⟩ := lookup_sym e1
          obtain ⟨hb, rfl⟩ := lookup_sym e2
          rcases mem_of_two h (by decide) hr hb hk with rfl | rfl
          · exact ⟨"rot_fft", by simp [rotbKeysSpect], by
              simp [fromRotb, rotbPhysFromSpect, ns2dPhysFromSpect, Fields.setPhys,
                Fields.setSpect, set, symOps, Term.mentions]⟩
          · exact ⟨"b_fft", by simp [rotbKeysSpect], by
              simp [fromRotb, rotbPhysFromSpect, ns2dPhysFromSpect, Fields.setPhys,
                Fields.setSpect, set, symOps, Term.mentions]⟩
    · rw [if_neg h] at hok ⊢
      exact base_keeps rotbKeysSpect s _ hn hok k hk

/-- **C11** (ns2d.strat, finding) `init_statespect_from(b_fft=b)`, and a single unknown key,
return normally with a zero state. -/
theorem C11_strat_violated (o : Ops V) (s : Fields V) (key : String) (v : V)
    (hk : key ∉ ["rot_fft", "ap_fft", "am_fft", "ux_fft", "uy_fft"]) :
    stratInitSpect o s [(key, v)] = ({ s with spect := fun _ => o.zero }, none) := by
  simp only [List.mem_cons, List.not_mem_nil, or_false, not_or] at hk
  obtain ⟨h1, h2, h3, h4, h5⟩ := hk
  simp [stratInitSpect, h1, h2, h3, h4, h5, baseInitSpect, spectLoop]

example : "b_fft" ∉ ["rot_fft", "ap_fft", "am_fft", "ux_fft", "uy_fft"] ∧
    "b_fft" ∈ rotbKeysSpect := by decide

/-- **C11** (sw1l, partial) every set of keywords but the pairs other than (`q_fft`, `a_fft`) -/
theorem C11_sw1l_keeps_all_partial (s : Fields Term) (keys : List String) (hn : keys.Nodup)
    (h2 : keys.length = 2 → "q_fft" ∈ keys ∧ "a_fft" ∈ keys)
    (hok : (sw1lInitSpect symOps s (symKw keys)).2 = none) (k : String) (hk : k ∈ keys) :
    ∃ k' ∈ sw1lKeysSpect, ((sw1lInitSpect symOps s (symKw keys)).1.spect k').mentions k := by
  match keys with
  | [] => cases hk
  | [key] =>
    simp only [List.mem_singleton] at hk
    subst hk
    revert hok
    simp only [symKw, List.map_cons, List.map_nil, sw1lInitSpect]
    have key : ∀ t, Term.mentions k t → ∀ f : Fields Term, f.spect "eta_fft" = t →
        ∃ k' ∈ sw1lKeysSpect, (f.spect k').mentions k :=
      fun t ht f hf => ⟨"eta_fft", by simp [sw1lKeysSpect], hf ▸ ht⟩
    split
    · intro _
      refine key (.un "dealiasing" (.var k)) (by simp [Term.mentions]) _ ?_
      simp [sw1lFromUxUyEta, sw1lPhysFromSpect, dealiasAll, Fields.setPhys, Fields.setSpect, set,
        symOps]
    · split
      · intro _
        refine key _ ?_ _ rfl
        simp [sw1lFromUxUy, Fields.setPhys, Fields.setSpect, set, symOps, Term.mentions]
      · split
        · intro _
          refine key _ ?_ _ rfl
          simp [sw1lFromUxUyEta, sw1lPhysFromSpect, dealiasAll, Fields.setPhys, Fields.setSpect,
            set, symOps, Term.mentions]
        · split
          · intro _
            refine key _ ?_ _ rfl
            simp [sw1lFromUxUyEta, sw1lPhysFromSpect, dealiasAll, Fields.setPhys, Fields.setSpect,
              set, symOps, Term.mentions]
          · split
            · intro h; cases h
            · intro hok
              exact base_keeps sw1lKeysSpect s [k] hn hok k (by simp)
  | a :: b :: rest =>
    have hlen : (symKw (a :: b :: rest)).length = (a :: b :: rest).length := by simp [symKw]
    have hdef : sw1lInitSpect symOps s (symKw (a :: b :: rest)) =
        sw1lInitMany symOps s (symKw (a :: b :: rest)) := rfl
    unfold sw1lInitMany at hdef
    rw [hdef, hlen] at hok ⊢
    by_cases h : (a :: b :: rest).length = 2
    · obtain ⟨hq, ha⟩ := h2 h
      rw [if_pos h] at hok ⊢
      cases e1 : lookup (symKw (a :: b :: rest)) "q_fft" with
      | none => exact absurd hq (lookup_sym_none e1)
      | some q =>
        cases e2 : lookup (symKw (a :: b :: rest)) "a_fft" with
        | none => exact absurd ha (lookup_sym_none e2)
        | some aa =>
          obtain ⟨_, rfl⟩ := lookup_sym e1
          obtain ⟨_, rfl⟩ := lookup_sym e2
          refine ⟨"eta_fft", by simp [sw1lKeysSpect], ?_⟩
          rcases mem_of_two h (by decide) hq ha hk with rfl | rfl <;>
            simp [sw1lFromQA, sw1lFromUxUyEta, sw1lPhysFromSpect, dealiasAll, Fields.setPhys,
              Fields.setSpect, set, symOps, Term.mentions]
    · rw [if_neg h] at hok ⊢
      exact base_keeps sw1lKeysSpect s _ hn hok k hk

/-- **C11** (sw1l, finding) e.g. `init_statespect_from(ux_fft=..., uy_fft=...)` returns normally
and does nothing. -/
theorem C11_sw1l_violated (o : Ops V) (s : Fields V) (a b : V) :
    sw1lInitSpect o s [("ux_fft", a), ("uy_fft", b)] = (s, none) := by
  simp [sw1lInitSpect, sw1lInitMany, lookup]

/-- **C11** (plate2d, partial) every set of keywords but a single one other than `w_fft` -/
theorem C11_plate2d_keeps_all_partial (s : Fields Term) (keys : List String) (hn : keys.Nodup)
    (h1 : ∀ k, keys = [k] → k = "w_fft")
    (hok : (plateInitSpect symOps s (symKw keys)).2 = none) (k : String) (hk : k ∈ keys) :
    ∃ k' ∈ plateKeysSpect, ((plateInitSpect symOps s (symKw keys)).1.spect k').mentions k := by
  match keys with
  | [] => cases hk
  | [key] =>
    obtain rfl := h1 key rfl
    simp only [List.mem_singleton] at hk
    subst hk
    exact ⟨"w_fft", by simp [plateKeysSpect], by
      simp [symKw, plateInitSpect, platePhysFromSpect, Fields.setPhys, Fields.setSpect, set,
        symOps, Term.mentions]⟩
  | a :: b :: rest => exact base_keeps plateKeysSpect s _ hn hok k hk

/-- **C11** (plate2d, finding) `init_statespect_from(z_fft=z)` returns normally and does
nothing. -/
theorem C11_plate2d_violated (o : Ops V) (s : Fields V) (z : V) :
    plateInitSpect o s [("z_fft", z)] = (s, none) := by
  simp [plateInitSpect]

/-- **C11** (spherical harmonics, finding) one keyword other than `rot_sh`, even a variable of
the state: nothing is done. -/
theorem C11_sphere_violated (o : Ops V) (keys : List String) (s : Fields V) (k : String) (v : V)
    (hk : k ≠ "rot_sh") : sphereInitSpect o keys s [(k, v)] = (s, none) := by
  simp [sphereInitSpect, hk]

/-- non-vacuity: sets of keywords that meet the hypotheses of the partial theorems and lead
to no exception -/
example : (sw1lInitSpect symOps ⟨fun _ => .zero, fun _ => .zero⟩ (symKw ["a_fft", "q_fft"])).2 = none ∧
    (stratInitSpect symOps ⟨fun _ => .zero, fun _ => .zero⟩ (symKw ["b_fft", "rot_fft"])).2 = none ∧
    (boussInitSpect symOps ⟨fun _ => .zero, fun _ => .zero⟩ (symKw ["b_fft"])).2 = none ∧
    (plateInitSpect symOps ⟨fun _ => .zero, fun _ => .zero⟩ (symKw ["z_fft", "w_fft"])).2 = none := by
  decide +kernel

end Verif.StateInit
