import Verif.PhysFiles.Lemmas
import Verif.Forcing.Props

/-!
# C31: the particular mode of the normalisation `particular_k`

`normalize_forcingc_part_k` draws one of the forced modes (fluidsim/base/forcing/specific.py 545-560).
-/

namespace Verif.Forcing

noncomputable section

/-- `oper_c.KX[~self.COND_NO_F].flatten()` and the same for `KY` (specific.py 547-548): the forced entries of the coarse array, row by row. -/
def forcedEntries (nky nkx : ℕ) (noF : ℕ → ℕ → Bool) : List (ℕ × ℕ) :=
  ((List.range nky).flatMap fun y => (List.range nkx).map fun x => (y, x)).filter fun i => !noF i.1 i.2

/-- `np.random.randint(low, high)`: `bits` are the random bits; `ValueError` for an empty interval. -/
def randint (low high bits : ℕ) : Except String ℕ :=
  if low ≥ high then .error "ValueError: low >= high" else .ok (low + bits % (high - low))

/-- The choice of the particular mode (specific.py 545-560): the indices `(ik0_part, ik1_part)`. `kx`, `ky` are the wavenumbers of the
coarse operator (`kx_loc`, `ky_loc`) and `bits` the random bits. The indices are those of the nearest wavenumbers of the ones drawn. -/
def particularMode (nky nkx : ℕ) (ky kx : ℕ → ℝ) (noF : ℕ → ℕ → Bool) (bits : ℕ) : Except String (ℕ × ℕ) :=
  let forced := forcedEntries nky nkx noF
  match randint 0 (forced.length - 1) bits with
  | .error e => .error e
  | .ok ipart =>
    match (forced.map fun i => kx i.2)[ipart]?, (forced.map fun i => ky i.1)[ipart]? with
    | some kxPart, some kyPart =>
      .ok (PhysFiles.argmin (((List.range nky).map ky).map fun q => |q - kyPart|),
        PhysFiles.argmin (((List.range nkx).map kx).map fun q => |q - kxPart|))
    | _, _ => .error "IndexError"

theorem mem_forced {nky nkx : ℕ} {noF : ℕ → ℕ → Bool} {i : ℕ × ℕ} :
    i ∈ forcedEntries nky nkx noF ↔ i.1 < nky ∧ i.2 < nkx ∧ noF i.1 i.2 = false := by
  obtain ⟨y, x⟩ := i
  simp [forcedEntries, and_assoc]

theorem nodup_forced (nky nkx : ℕ) (noF : ℕ → ℕ → Bool) : (forcedEntries nky nkx noF).Nodup := by
  refine List.Nodup.filter _ (List.nodup_flatMap.2 ⟨fun y _ => List.nodup_range.map fun a b h => (Prod.mk.inj h).2, ?_⟩)
  refine List.nodup_range.imp fun {a b} hab => ?_
  intro i h1 h2
  simp only [List.mem_map] at h1 h2
  obtain ⟨x, -, rfl⟩ := h1
  obtain ⟨x', -, h⟩ := h2
  exact hab (Prod.mk.inj h).1.symm

/-- The nearest wavenumber of one of the wavenumbers is itself. -/
theorem nearest_self {n : ℕ} {k : ℕ → ℝ} (hk : Set.InjOn k (Set.Iio n)) {i : ℕ} (hi : i < n) :
    PhysFiles.argmin (((List.range n).map k).map fun q => |q - k i|) = i := by
  have hne : ((List.range n).map k).map (fun q => |q - k i|) ≠ [] := by
    intro h
    have := congrArg List.length h
    simp at this
    omega
  obtain ⟨x, h1, h2, -⟩ := PhysFiles.argmin_spec _ hne
  set m := PhysFiles.argmin (((List.range n).map k).map fun q => |q - k i|)
  have hm : m < n := by
    have := (List.getElem?_eq_some_iff.1 h1).1
    simpa using this
  have hx : x = |k m - k i| := by
    have := (List.getElem?_eq_some_iff.1 h1).2
    simpa using this.symm
  have h0 : x ≤ 0 := by
    have := h2 |k i - k i| (List.mem_map.2 ⟨k i, List.mem_map.2 ⟨i, List.mem_range.2 hi, rfl⟩, rfl⟩)
    simpa using this
  rw [hx] at h0
  exact hk hm hi (sub_eq_zero.1 (abs_nonpos_iff.1 h0))

/-- C31: with at least two forced modes, the particular mode is always one of the forced modes. -/
theorem C31_particular_mode_forced {nky nkx : ℕ} {ky kx : ℕ → ℝ} (hy : Set.InjOn ky (Set.Iio nky)) (hx : Set.InjOn kx (Set.Iio nkx))
    {noF : ℕ → ℕ → Bool} (h2 : ∃ a b : ℕ × ℕ, a ≠ b ∧ (a.1 < nky ∧ a.2 < nkx ∧ noF a.1 a.2 = false) ∧ b.1 < nky ∧ b.2 < nkx ∧
      noF b.1 b.2 = false) (bits : ℕ) :
    ∃ iy ix, particularMode nky nkx ky kx noF bits = .ok (iy, ix) ∧ iy < nky ∧ ix < nkx ∧ noF iy ix = false := by
  set l := forcedEntries nky nkx noF with hl
  have hlen : 2 ≤ l.length := by
    obtain ⟨a, b, hab, ha, hb⟩ := h2
    have h := (List.Nodup.subperm (l₁ := [a, b]) (l₂ := l) (by simp [hab]) (by
      intro i hi
      simp only [List.mem_cons, List.not_mem_nil, or_false] at hi
      rcases hi with rfl | rfl
      · exact mem_forced.2 ha
      · exact mem_forced.2 hb)).length_le
    simpa using h
  have hr : bits % (l.length - 1) < l.length := lt_of_lt_of_le (Nat.mod_lt _ (by omega)) (by omega)
  obtain ⟨i1, i2, i3⟩ := mem_forced.1 (List.getElem_mem hr)
  refine ⟨_, _, ?_, i1, i2, i3⟩
  simp only [particularMode, randint, ← hl, ge_iff_le, Nat.le_zero, show l.length - 1 ≠ 0 by omega, if_false, zero_add, Nat.sub_zero,
    List.getElem?_map, List.getElem?_eq_getElem hr, Option.map_some, nearest_self hy i1, nearest_self hx i2]

/-- The modes which can be drawn are all the forced modes but the last one: for each of them there are random bits which give it. -/
theorem C31_particular_mode_all_but_last_partial {nky nkx : ℕ} {ky kx : ℕ → ℝ} (hy : Set.InjOn ky (Set.Iio nky))
    (hx : Set.InjOn kx (Set.Iio nkx)) {noF : ℕ → ℕ → Bool} (i : ℕ × ℕ) :
    (∃ bits, particularMode nky nkx ky kx noF bits = .ok i) ↔ i ∈ (forcedEntries nky nkx noF).dropLast := by
  set l := forcedEntries nky nkx noF with hl
  constructor
  · rintro ⟨bits, h⟩
    by_cases h0 : l.length - 1 = 0
    · simp [particularMode, randint, ← hl, h0] at h
    have hr : bits % (l.length - 1) < l.length - 1 := Nat.mod_lt _ (by omega)
    have hr' : bits % (l.length - 1) < l.length := by omega
    obtain ⟨i1, i2, -⟩ := mem_forced.1 (List.getElem_mem hr')
    simp only [particularMode, randint, ← hl, ge_iff_le, Nat.le_zero, h0, if_false, zero_add, Nat.sub_zero, List.getElem?_map,
      List.getElem?_eq_getElem hr', Option.map_some, nearest_self hy i1, nearest_self hx i2, Except.ok.injEq] at h
    rw [← h]
    have : l.dropLast[bits % (l.length - 1)]'(by simpa using hr) = l[bits % (l.length - 1)] := List.getElem_dropLast _
    rw [Prod.mk.eta, ← this]
    exact List.getElem_mem _
  · intro h
    obtain ⟨j, hj, e⟩ := List.mem_iff_getElem.1 h
    have hj' : j < l.length - 1 := by simpa using hj
    have hr' : j < l.length := by omega
    refine ⟨j, ?_⟩
    obtain ⟨i1, i2, -⟩ := mem_forced.1 (List.getElem_mem hr')
    rw [List.getElem_dropLast] at e
    simp only [particularMode, randint, ← hl, ge_iff_le, Nat.le_zero, show l.length - 1 ≠ 0 by omega, if_false, zero_add, Nat.sub_zero,
      Nat.mod_eq_of_lt hj', List.getElem?_map, List.getElem?_eq_getElem hr', Option.map_some, nearest_self hy i1, nearest_self hx i2]
    rw [Prod.mk.eta, e]

/-- A mode chosen "randomly in the forced space" (comment of specific.py 545) should be any of the forced modes, but `randint(0, n - 1)`
excludes its upper bound: whatever the random bits, the last forced mode (the largest indices) is never the particular mode. -/
theorem C31_particular_last_violated {nky nkx : ℕ} {ky kx : ℕ → ℝ} (hy : Set.InjOn ky (Set.Iio nky)) (hx : Set.InjOn kx (Set.Iio nkx))
    {noF : ℕ → ℕ → Bool} {i : ℕ × ℕ} (hi : (forcedEntries nky nkx noF).getLast? = some i) (bits : ℕ) :
    particularMode nky nkx ky kx noF bits ≠ .ok i := by
  intro h
  have hd := (C31_particular_mode_all_but_last_partial hy hx (noF := noF) i).1 ⟨bits, h⟩
  have hn := nodup_forced nky nkx noF
  obtain ⟨hne, e⟩ : ∃ hne : forcedEntries nky nkx noF ≠ [], (forcedEntries nky nkx noF).getLast hne = i := by
    rw [List.getLast?_eq_some_iff] at hi
    obtain ⟨ys, hys⟩ := hi
    refine ⟨by simp [hys], ?_⟩
    simp [hys]
  rw [← List.dropLast_append_getLast hne, e] at hn
  exact (List.nodup_append.1 hn).2.2 i hd i (by simp) rfl

/-- With only one forced mode the normalisation `particular_k` fails. -/
theorem C31_particular_single_violated {nky nkx : ℕ} (ky kx : ℕ → ℝ) {noF : ℕ → ℕ → Bool} {i : ℕ × ℕ}
    (h1 : forcedEntries nky nkx noF = [i]) (bits : ℕ) :
    particularMode nky nkx ky kx noF bits = .error "ValueError: low >= high" := by
  simp [particularMode, randint, h1]

/-- A coarse grid 4 × 3 with three forced modes: the last one is `(3, 1)`; the wavenumbers are distinct. -/
example : forcedEntries 4 3 (fun y x => !(decide ((y, x) ∈ [(0, 1), (1, 0), (3, 1)]))) = [(0, 1), (1, 0), (3, 1)] ∧
    (forcedEntries 4 3 (fun y x => !(decide ((y, x) ∈ [(0, 1), (1, 0), (3, 1)])))).getLast? = some (3, 1) ∧
    Set.InjOn (fun y : ℕ => if y = 3 then (-1 : ℝ) else y) (Set.Iio 4) ∧ Set.InjOn (fun x : ℕ => (x : ℝ)) (Set.Iio 3) ∧
    forcedEntries 4 3 (fun y x => !(decide ((y, x) = (1, 1)))) = [(1, 1)] := by
  refine ⟨by decide, by decide, fun a ha b hb h => ?_, fun a _ b _ h => Nat.cast_injective h, by decide⟩
  have ha' : (0 : ℝ) ≤ a := Nat.cast_nonneg a
  have hb' : (0 : ℝ) ≤ b := Nat.cast_nonneg b
  simp only at h
  split_ifs at h with h1 h2 h2
  · omega
  · linarith
  · linarith
  · exact_mod_cast h

end

end Verif.Forcing
