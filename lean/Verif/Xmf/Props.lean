import Verif.Xmf.Spec
import Mathlib.Algebra.Order.Ring.Rat
import Mathlib.Algebra.Order.Field.Rat
import Mathlib.Data.Rat.Floor
import Mathlib.Tactic.Linarith
import Mathlib.Tactic.Ring
import Mathlib.Tactic.Positivity
import Mathlib.Algebra.Order.Field.Power

/-! # C78: theorems on the description of the files for Paraview -/

namespace Verif.Xmf

set_option linter.unusedSectionVars false

variable {K : Type*} [Field K] [LinearOrder K] [IsStrictOrderedRing K] [FloorRing K]

theorem round9_near (t : K) : |round9 t - t| ≤ 1 / (2 * 10 ^ 9) := by
  have h1 := Int.floor_le (t * 10 ^ 9 + 1 / 2)
  have h2 := Int.lt_floor_add_one (t * 10 ^ 9 + 1 / 2)
  have h9 : (0 : K) < 10 ^ 9 := by positivity
  have e1 : (1 : K) / (2 * 10 ^ 9) = 1 / 2 / 10 ^ 9 := by rw [div_div]
  rw [abs_le, round9, e1]
  constructor
  · rw [le_sub_iff_add_le, le_div_iff₀ h9, add_mul, neg_mul, div_mul_cancel₀ _ h9.ne']
    linarith
  · rw [sub_le_iff_le_add, div_le_iff₀ h9, add_mul, div_mul_cancel₀ _ h9.ne']
    linarith

theorem sorted_perm (files : List (File K)) : (sorted files).Perm files := List.mergeSort_perm _ _

theorem sorted_two (f g : File K) : sorted [f, g] = if f.name ≤ g.name then [f, g] else [g, f] := by
  simp only [sorted]
  rw [List.mergeSort]
  simp [List.MergeSort.Internal.splitInTwo, List.merge]

/-- The vectors found: the names whose components are all variables. -/
theorem mem_vectors {nd : ℕ} (h : nd = 2 ∨ nd = 3) (keys : List Str) (v : Str) :
    ∃ l, vectors nd keys = some l ∧ (v ∈ l ↔ ∀ c ∈ components nd, v ++ [c] ∈ keys) := by
  refine ⟨_, if_pos h, ?_⟩
  have hx : 'x' ∈ components nd := by unfold components; split_ifs <;> simp
  simp only [List.mem_filterMap]
  constructor
  · rintro ⟨key, hk, hv⟩
    split_ifs at hv with h1 h2
    simp only [Option.some.injEq] at hv
    subst hv
    simpa [List.all_eq_true] using h2
  · intro hc
    refine ⟨v ++ ['x'], hc _ hx, ?_⟩
    rw [if_pos (by simp), if_pos (by simpa [List.all_eq_true] using hc)]
    simp

theorem describes_of (f0 f : File K) (hx : f0.x = f.x) (hy : f0.y = f.y) (hz : f0.z = f.z) (hk : f0.keys = f.keys)
    (h : TwoD f0 ∨ ThreeD f0) (vecs : List Str) :
    ∃ geo, geometry f0 = .ok geo ∧ Describes (gridOf (ndim f0) geo f0.keys vecs f) f := by
  have hs : ∀ k (r : Ref), (k, r) ∈ f0.keys.map (fun k => (k, (⟨f.name, k⟩ : Ref))) ↔ k ∈ f.keys ∧ r = ⟨f.name, k⟩ := by
    intro k r
    rw [hk]
    constructor
    · intro hm
      obtain ⟨a, ha, he⟩ := List.mem_map.1 hm
      simp only [Prod.mk.injEq] at he
      obtain ⟨rfl, rfl⟩ := he
      exact ⟨ha, rfl⟩
    · rintro ⟨h1, rfl⟩
      exact List.mem_map.2 ⟨k, h1, rfl⟩
  rcases h with ⟨h1, h2⟩ | ⟨h1, h2⟩
  · obtain ⟨y, hy'⟩ := Option.isSome_iff_exists.1 h1
    have hn : ndim f0 = 2 := by simp [ndim, h2]
    refine ⟨_, by rw [geometry, hn, hy']; rfl, ⟨round9_near _, ?_, ?_, ?_, hs⟩⟩
    · simp [gridOf, axes, ← hx, ← hy, ← hz, hy', h2]
    · simp [gridOf, axes, ← hy, ← hz, hy', h2, hn]
    · intro d n L hd i
      simp only [axes, ← hx, ← hy, ← hz, hy', h2, Option.toList_none, Option.toList_some, List.nil_append,
        List.cons_append] at hd
      match d, hd with
      | 0, hd => simp at hd; subst hd; simp [position, gridOf]
      | 1, hd => simp at hd; simp [position, gridOf, hd]
  · obtain ⟨y, hy'⟩ := Option.isSome_iff_exists.1 h1
    obtain ⟨z, hz'⟩ := Option.isSome_iff_exists.1 h2
    have hn : ndim f0 = 3 := by simp [ndim, hy', hz']
    refine ⟨_, by rw [geometry, hn, hy', hz']; rfl, ⟨round9_near _, ?_, ?_, ?_, hs⟩⟩
    · simp [gridOf, axes, ← hx, ← hy, ← hz, hy', hz']
    · simp [gridOf, axes, ← hy, ← hz, hy', hz', hn]
    · intro d n L hd i
      simp only [axes, ← hx, ← hy, ← hz, hy', hz', Option.toList_some, List.nil_append,
        List.cons_append] at hd
      match d, hd with
      | 0, hd => simp at hd; subst hd; simp [position, gridOf]
      | 1, hd => simp at hd; subst hd; simp [position, gridOf]
      | 2, hd => simp at hd; simp [position, gridOf, hd]

/-- C78: for the files of one simulation in two or three dimensions, the xmf file contains one grid for each file, in
the order of the names, and each grid describes its file: time, shape, positions of the points, and the variables. -/
theorem C78_describes (files : List (File K)) (hr : OneRun files) (h0 : files ≠ [])
    (hd : ∀ f ∈ files, TwoD f ∨ ThreeD f) :
    ∃ gs order, create files = .ok gs ∧ order.Perm files ∧ order.Pairwise (fun f g => f.name < g.name) ∧
      List.Forall₂ (fun f g => Describes g f) order gs := by
  have hp := sorted_perm files
  have hne : sorted files ≠ [] := fun h => h0 (by rw [h] at hp; exact hp.symm.eq_nil)
  have hpw : (sorted files).Pairwise (fun f g => f.name < g.name) := by
    have h1 : (sorted files).Pairwise (fun f g => f.name ≤ g.name) := by
      have := List.pairwise_mergeSort (le := fun f g : File K => decide (f.name ≤ g.name))
        (fun a b c h1 h2 => by simp only [decide_eq_true_eq] at *; exact h1.trans h2)
        (fun a b => by simp only [Bool.or_eq_true, decide_eq_true_eq]; exact le_total a.name b.name) files
      exact this.imp fun h => by simpa using h
    have h2 : ((sorted files).map File.name).Nodup := (hp.map File.name).nodup_iff.2 hr.1
    have h3 : (sorted files).Pairwise (fun f g => f.name ≠ g.name) := List.pairwise_map.1 h2
    exact (h1.and h3).imp fun h => lt_of_le_of_ne h.1 h.2
  obtain ⟨f0, l, hl⟩ := List.exists_cons_of_ne_nil hne
  have hmem : ∀ f ∈ f0 :: l, f ∈ files := fun f hf => hp.mem_iff.1 (hl ▸ hf)
  have h0m : f0 ∈ files := hmem f0 (by simp)
  have hnd : ndim f0 = 2 ∨ ndim f0 = 3 := by
    rcases hd f0 h0m with ⟨h1, h2⟩ | ⟨h1, h2⟩
    · left; simp [ndim, h2]
    · right
      obtain ⟨y, hy'⟩ := Option.isSome_iff_exists.1 h1
      obtain ⟨z, hz'⟩ := Option.isSome_iff_exists.1 h2
      simp [ndim, hy', hz']
  obtain ⟨vecs, hv, -⟩ := mem_vectors hnd f0.keys []
  obtain ⟨geo, hg, -⟩ := describes_of f0 f0 rfl rfl rfl rfl (hd f0 h0m) vecs
  refine ⟨(f0 :: l).map (gridOf (ndim f0) geo f0.keys vecs), f0 :: l, ?_, hl ▸ hp, hl ▸ hpw, ?_⟩
  · simp only [create, hl, hg, hv]
  · rw [List.forall₂_map_right_iff, List.forall₂_same]
    intro f hf
    obtain ⟨e1, e2, e3, e4⟩ := hr.2 f0 h0m f (hmem f hf)
    obtain ⟨geo', hg', hD⟩ := describes_of f0 f e1 e2 e3 e4 (hd f0 h0m) vecs
    rw [hg] at hg'
    cases hg'
    exact hD

/-- C78: in three dimensions the vectors are the names whose three components are variables, and each of them refers
to the three existing datasets of its file, in the order of the axes. -/
theorem C78_vectors_3d (files : List (File K)) (hr : OneRun files) (hd : ∀ f ∈ files, ThreeD f) (gs : List (Grid K))
    (h : create files = .ok gs) (g : Grid K) (hg : g ∈ gs) :
    g.join = 3 ∧ ∃ f ∈ files, ∀ v rs, (v, rs) ∈ g.vectors ↔
      (∀ c ∈ ['x', 'y', 'z'], v ++ [c] ∈ f.keys) ∧ rs = ['x', 'y', 'z'].map fun c => ⟨f.name, v ++ [c]⟩ := by
  have hp := sorted_perm files
  unfold create at h
  cases hl : sorted files with
  | nil => simp [hl] at h
  | cons f0 l =>
    have hmem : ∀ f ∈ f0 :: l, f ∈ files := fun f hf => hp.mem_iff.1 (hl ▸ hf)
    obtain ⟨h1, h2⟩ := hd f0 (hmem f0 (by simp))
    obtain ⟨y, hy'⟩ := Option.isSome_iff_exists.1 h1
    obtain ⟨z, hz'⟩ := Option.isSome_iff_exists.1 h2
    have hn : ndim f0 = 3 := by simp [ndim, hy', hz']
    rw [hl] at h
    simp only [geometry, hn, hy', hz'] at h
    have hv := fun v => mem_vectors (Or.inr rfl : (3 : ℕ) = 2 ∨ (3 : ℕ) = 3) f0.keys v
    obtain ⟨vecs, hvs, -⟩ := hv []
    have hvm : ∀ v, v ∈ vecs ↔ ∀ c ∈ ['x', 'y', 'z'], v ++ [c] ∈ f0.keys := by
      intro v
      obtain ⟨l', e1, e2⟩ := hv v
      rw [hvs] at e1; cases e1
      exact e2
    rw [hvs] at h
    simp at h
    subst h
    obtain ⟨f, hf, rfl⟩ := List.mem_map.1 (by simpa using hg : g ∈ (f0 :: l).map (gridOf 3 _ f0.keys vecs))
    refine ⟨by simp [gridOf], f, hmem f hf, fun v rs => ?_⟩
    have hk := (hr.2 f0 (hmem f0 (by simp)) f (hmem f hf)).2.2.2
    rw [← hk, ← hvm]
    simp only [gridOf, List.mem_map, Prod.mk.injEq]
    constructor
    · rintro ⟨a, ha, rfl, rfl⟩; exact ⟨ha, rfl⟩
    · rintro ⟨ha, rfl⟩; exact ⟨v, ha, rfl, rfl⟩

/-- C78, finding: in two dimensions each vector refers to a third component which does not exist (for a solver without
variable of this name): the velocity of ns2d refers to "uz". The function joins two components. -/
theorem C78_vectors_2d_violated (files : List (File K)) (hr : OneRun files) (hd : ∀ f ∈ files, TwoD f)
    (h0 : files ≠ []) (v : Str) (hx : ∀ f ∈ files, v ++ ['x'] ∈ f.keys) (hy : ∀ f ∈ files, v ++ ['y'] ∈ f.keys)
    (hz : ∀ f ∈ files, v ++ ['z'] ∉ f.keys) :
    ∃ gs, create files = .ok gs ∧ gs ≠ [] ∧ ∀ g ∈ gs, g.join = 2 ∧ ∃ rs, (v, rs) ∈ g.vectors ∧ rs.length = 3 ∧
      ∃ r ∈ rs, ¬Exists files r := by
  obtain ⟨gs, order, h1, h2, -, h4⟩ := C78_describes files hr h0 fun f hf => Or.inl (hd f hf)
  have hlen := h4.length_eq
  refine ⟨gs, h1, ?_, ?_⟩
  · rintro rfl
    simp only [List.length_nil] at hlen
    exact h0 (List.length_eq_zero_iff.1 (by rw [← h2.length_eq]; omega))
  have hp := sorted_perm files
  unfold create at h1
  cases hl : sorted files with
  | nil => simp [hl] at h1
  | cons f0 l =>
    have hmem : ∀ f ∈ f0 :: l, f ∈ files := fun f hf => hp.mem_iff.1 (hl ▸ hf)
    have h0m := hmem f0 (by simp)
    obtain ⟨a1, a2⟩ := hd f0 h0m
    obtain ⟨y, hy'⟩ := Option.isSome_iff_exists.1 a1
    have hn : ndim f0 = 2 := by simp [ndim, a2]
    rw [hl] at h1
    simp only [geometry, hn, hy'] at h1
    obtain ⟨vecs, hvs, hvm⟩ := mem_vectors (Or.inl rfl : (2 : ℕ) = 2 ∨ (2 : ℕ) = 3) f0.keys v
    have hv : v ∈ vecs := hvm.2 (by simp [components, hx f0 h0m, hy f0 h0m])
    rw [hvs] at h1
    simp at h1
    subst h1
    intro g hg
    obtain ⟨f, hf, rfl⟩ := List.mem_map.1 (by simpa using hg : g ∈ (f0 :: l).map (gridOf 2 _ f0.keys vecs))
    refine ⟨by simp [gridOf], _, List.mem_map.2 ⟨v, hv, rfl⟩, rfl, ⟨f.name, v ++ ['z']⟩, by simp, ?_⟩
    rintro ⟨f', hf', -, hk⟩
    exact hz f' hf' hk

/-- C78, finding: for a simulation in one dimension the function raises an exception, whatever the files. -/
theorem C78_1d_violated (files : List (File K)) (h0 : files ≠ []) (hd : ∀ f ∈ files, OneD f) :
    create files = .error .unbound := by
  have hp := sorted_perm files
  cases hl : sorted files with
  | nil => rw [hl] at hp; exact absurd hp.symm.eq_nil h0
  | cons f0 l =>
    obtain ⟨h1, h2⟩ := hd f0 (hp.mem_iff.1 (by rw [hl]; simp))
    simp [create, hl, geometry, ndim, h1, h2]

/-- C78: without file the function raises ValueError and writes nothing. -/
theorem C78_no_file : create ([] : List (File K)) = .error .value := by
  simp [create, sorted]

/-- C78, finding: the grids of the time series follow the order of the names, not the times: with names of fixed width
(`USE_T_END = False`) the time 1000 comes before the time 999. -/
theorem C78_time_order_violated :
    ∃ gs, create ([⟨"state_phys_t999.000.nc".toList, (4, 1), some (4, 1), none, [['b']], 999⟩,
        ⟨"state_phys_t1000.000.nc".toList, (4, 1), some (4, 1), none, [['b']], 1000⟩] : List (File ℚ)) = .ok gs ∧
      gs.map Grid.time = [1000, 999] := by
  have hs : sorted ([⟨"state_phys_t999.000.nc".toList, (4, 1), some (4, 1), none, [['b']], 999⟩,
        ⟨"state_phys_t1000.000.nc".toList, (4, 1), some (4, 1), none, [['b']], 1000⟩] : List (File ℚ)) =
      [⟨"state_phys_t1000.000.nc".toList, (4, 1), some (4, 1), none, [['b']], 1000⟩,
       ⟨"state_phys_t999.000.nc".toList, (4, 1), some (4, 1), none, [['b']], 999⟩] := by
    rw [sorted_two, if_neg (by decide)]
  refine ⟨_, by rw [create, hs]; rfl, ?_⟩
  simp only [List.map_cons, List.map_nil, gridOf]
  decide +kernel

/-- C78, finding: the geometry of all the files is the one of the first: a file with another resolution in the same
directory is described with a wrong shape. -/
theorem C78_resolution_violated :
    ∃ gs, create ([⟨['a'], (4, 1), some (4, 1), none, [['b']], 0⟩,
        ⟨['b'], (8, 1), some (8, 1), none, [['b']], 1⟩] : List (File ℚ)) = .ok gs ∧
      gs.map Grid.dims = [[4, 4], [4, 4]] := by
  have hs : sorted ([⟨['a'], (4, 1), some (4, 1), none, [['b']], 0⟩,
        ⟨['b'], (8, 1), some (8, 1), none, [['b']], 1⟩] : List (File ℚ)) =
      [⟨['a'], (4, 1), some (4, 1), none, [['b']], 0⟩, ⟨['b'], (8, 1), some (8, 1), none, [['b']], 1⟩] := by
    rw [sorted_two, if_pos (by decide)]
  exact ⟨_, by rw [create, hs]; rfl, rfl⟩

/-- The hypotheses are met: two files of ns3d, and two files of ns2d. -/
example : OneRun ([⟨['a'], (4, 1), some (4, 1), some (2, 1), [['v', 'x'], ['v', 'y'], ['v', 'z']], 0⟩,
      ⟨['b'], (4, 1), some (4, 1), some (2, 1), [['v', 'x'], ['v', 'y'], ['v', 'z']], 1⟩] : List (File ℚ)) ∧
    OneRun ([⟨['a'], (4, 1), some (4, 1), none, [['u', 'x'], ['u', 'y']], 0⟩] : List (File ℚ)) := by
  constructor <;> refine ⟨by decide, ?_⟩ <;> simp

end Verif.Xmf
