import Mathlib.Tactic.Linarith
import Mathlib.Tactic.Ring
import Mathlib.Tactic.FieldSimp
import Mathlib.Data.List.Sort
import Mathlib.Algebra.Order.Group.Abs
import Verif.PhysFiles.Lemmas
import Verif.Hexa.Spec

/-! # Lemmas for C76 -/

namespace Verif.Hexa

set_option linter.unusedSectionVars false

variable {Q : Type*} [Field Q] [LinearOrder Q] [IsStrictOrderedRing Q]

theorem mem_values (e : Elem Q) (a : ℕ → ℕ → ℕ → Q) (v : Q) :
    v ∈ e.values a ↔ ∃ i < e.nz, ∃ j < e.ny, ∃ k < e.nx, a i j k = v := by
  simp [Elem.values, List.mem_flatMap, List.mem_map, List.mem_range]

theorem between_iff (l : List Q) (t : Q) : between l t = true ↔ InRange l t := by
  simp [between, InRange, List.any_eq_true]

theorem between_values (e : Elem Q) (d : Dir) (t : Q) :
    between (e.values (e.data .pos d.comp)) t = true ↔ Meets e d t := by
  rw [between_iff]
  simp only [InRange, mem_values, Meets]
  constructor
  · rintro ⟨⟨a, ⟨i, hi, j, hj, k, hk, rfl⟩, h1⟩, b, ⟨i', hi', j', hj', k', hk', rfl⟩, h2⟩
    exact ⟨⟨i, hi, j, hj, k, hk, h1⟩, i', hi', j', hj', k', hk', h2⟩
  · rintro ⟨⟨i, hi, j, hj, k, hk, h1⟩, i', hi', j', hj', k', hk', h2⟩
    exact ⟨⟨_, ⟨i, hi, j, hj, k, hk, rfl⟩, h1⟩, _, ⟨i', hi', j', hj', k', hk', rfl⟩, h2⟩

theorem argmin_range (n : ℕ) (hn : 0 < n) (c : ℕ → Q) (t : Q) :
    Closest n c t (PhysFiles.argmin (((List.range n).map c).map fun x => |x - t|)) := by
  have hne : ((List.range n).map c).map (fun x => |x - t|) ≠ [] := by
    intro h
    have := congrArg List.length h
    simp at this
    omega
  obtain ⟨x, h1, h2, -⟩ := PhysFiles.argmin_spec _ hne
  set i := PhysFiles.argmin (((List.range n).map c).map fun x => |x - t|)
  have hi : i < n := by
    by_contra hi
    rw [List.getElem?_eq_none (by simp; omega)] at h1
    cases h1
  have hx : |c i - t| = x := by
    simpa [List.getElem?_map, List.getElem?_range hi] using h1
  refine ⟨hi, fun j hj => ?_⟩
  rw [hx]
  exact h2 _ (by simp only [List.map_map, List.mem_map, List.mem_range]; exact ⟨j, hj, rfl⟩)

theorem argmin_const (n : ℕ) (c : Q) (t : Q) :
    PhysFiles.argmin (((List.range n).map fun _ => c).map fun x => |x - t|) = 0 := by
  rcases Nat.eq_zero_or_pos n with rfl | hn
  · rfl
  have hne : ((List.range n).map fun _ => c).map (fun x => |x - t|) ≠ [] := by
    intro h
    have := congrArg List.length h
    simp at this
    omega
  obtain ⟨x, h1, h2, h3⟩ := PhysFiles.argmin_spec _ hne
  set i := PhysFiles.argmin (((List.range n).map fun _ => c).map fun x => |x - t|)
  by_contra hi
  have hx : x = |c - t| := by
    have := List.mem_of_getElem? h1
    simp at this
    exact this.2
  have := h3 0 |c - t| (by omega) (by simp [hn])
  rw [hx] at this
  exact lt_irrefl _ this

theorem listMin_spec (l : List Q) (m : Q) :
    (listMin l m = m ∨ listMin l m ∈ l) ∧ listMin l m ≤ m ∧ ∀ x ∈ l, listMin l m ≤ x := by
  induction l generalizing m with
  | nil => simp [listMin]
  | cons a l ih =>
    obtain ⟨h1, h2, h3⟩ := ih (if a < m then a else m)
    simp only [listMin]
    have ha : (if a < m then a else m) ≤ a ∧ (if a < m then a else m) ≤ m := by
      split_ifs with h
      · exact ⟨le_refl _, h.le⟩
      · exact ⟨not_lt.1 h, le_refl _⟩
    refine ⟨?_, h2.trans ha.2, ?_⟩
    · rcases h1 with h1 | h1
      · rw [h1]
        split_ifs with h
        · right; simp
        · left; rfl
      · right; exact List.mem_cons_of_mem _ h1
    · intro x hx
      rcases List.mem_cons.1 hx with rfl | hx
      · exact h2.trans ha.1
      · exact h3 x hx

theorem lmin_spec (l : List Q) (h : l ≠ []) : lmin l ∈ l ∧ ∀ x ∈ l, lmin l ≤ x := by
  cases l with
  | nil => exact absurd rfl h
  | cons a l =>
    obtain ⟨h1, h2, h3⟩ := listMin_spec l a
    simp only [lmin]
    refine ⟨?_, ?_⟩
    · rcases h1 with h1 | h1
      · rw [h1]; simp
      · exact List.mem_cons_of_mem _ h1
    · intro x hx
      rcases List.mem_cons.1 hx with rfl | hx
      · exact h2
      · exact h3 x hx

theorem lmax_spec (l : List Q) (h : l ≠ []) : lmax l ∈ l ∧ ∀ x ∈ l, x ≤ lmax l := by
  obtain ⟨h1, h2⟩ := lmin_spec (l.map (-·)) (by simpa using h)
  obtain ⟨a, ha, he⟩ := List.mem_map.1 h1
  refine ⟨?_, fun x hx => ?_⟩
  · rw [lmax, ← he, neg_neg]; exact ha
  · have := h2 (-x) (List.mem_map.2 ⟨x, hx, rfl⟩)
    rw [lmax]; linarith

theorem inRange_iff (l : List Q) (h : l ≠ []) (t : Q) :
    InRange l t ↔ lmin l ≤ t ∧ t ≤ lmax l := by
  obtain ⟨a1, a2⟩ := lmin_spec l h
  obtain ⟨b1, b2⟩ := lmax_spec l h
  constructor
  · rintro ⟨⟨a, ha, h1⟩, b, hb, h2⟩
    exact ⟨(a2 a ha).trans h1, h2.trans (b2 b hb)⟩
  · rintro ⟨h1, h2⟩
    exact ⟨⟨_, a1, h1⟩, _, b1, h2⟩

theorem mem_flat (a : Arr Q) (v : Q) :
    v ∈ a.flat ↔ ∃ j < a.n0, ∃ k < a.n1, a.val j k = v := by
  simp [Arr.flat, List.mem_flatMap, List.mem_map, List.mem_range]

theorem flat_eq (a : Arr Q) (h : 0 < a.n1) :
    a.flat = (List.range (a.n0 * a.n1)).map fun i => a.val (i / a.n1) (i % a.n1) := by
  obtain ⟨n0, n1, v⟩ := a
  simp only at h
  simp only [Arr.flat]
  induction n0 with
  | zero => simp
  | succ n ih =>
    rw [List.range_succ, List.flatMap_append, ih, Nat.add_mul, Nat.one_mul, List.range_add,
      List.map_append]
    congr 1
    simp only [List.flatMap_cons, List.flatMap_nil, List.append_nil, List.map_map]
    refine List.map_congr_left fun k hk => ?_
    have hk := List.mem_range.1 hk
    simp only [Function.comp]
    rw [Nat.mul_comm, Nat.mul_add_div h, Nat.div_eq_of_lt hk, Nat.add_zero, Nat.mul_add_mod,
      Nat.mod_eq_of_lt hk]

/-- `m` is the smallest element of `S`; `none`: `S` is empty. -/
def IsMin (r : Option Q) (S : Q → Prop) : Prop := match r with
  | none => ∀ v, ¬ S v
  | some m => S m ∧ ∀ v, S v → m ≤ v

theorem minStep_isMin (a : Arr Q) (r : Option Q) (S : Q → Prop) (h0 : IsMin r S) :
    IsMin (minStep r a) fun v => S v ∨ v ∈ a.flat := by
  unfold minStep
  cases hf : a.flat with
  | nil =>
    cases r with
    | none => simpa [IsMin] using h0
    | some m => simpa [IsMin] using h0
  | cons x l =>
    obtain ⟨h1, h2, h3⟩ := listMin_spec l x
    have hm : listMin l x ∈ x :: l := by
      rcases h1 with h1 | h1
      · rw [h1]; simp
      · exact List.mem_cons_of_mem _ h1
    have hle : ∀ v ∈ x :: l, listMin l x ≤ v := by
      intro v hv
      rcases List.mem_cons.1 hv with rfl | hv
      · exact h2
      · exact h3 v hv
    cases r with
    | none =>
      refine ⟨Or.inr hm, fun v hv => ?_⟩
      rcases hv with hv | hv
      · exact absurd hv (h0 v)
      · exact hle v hv
    | some r =>
      dsimp only
      by_cases hlt : listMin l x < r
      · rw [if_pos hlt]
        refine ⟨Or.inr hm, fun v hv => ?_⟩
        rcases hv with hv | hv
        · exact hlt.le.trans (h0.2 v hv)
        · exact hle v hv
      · rw [if_neg hlt]
        refine ⟨Or.inl h0.1, fun v hv => ?_⟩
        rcases hv with hv | hv
        · exact h0.2 v hv
        · exact (not_lt.1 hlt).trans (hle v hv)

theorem foldl_isMin (as : List (Arr Q)) (r : Option Q) (S : Q → Prop) (h0 : IsMin r S) :
    IsMin (as.foldl minStep r) fun v => S v ∨ ∃ a ∈ as, v ∈ a.flat := by
  induction as generalizing r S with
  | nil => simpa using h0
  | cons a as ih =>
    rw [List.foldl_cons]
    have := ih _ _ (minStep_isMin a r S h0)
    have key : (fun v => S v ∨ ∃ b ∈ a :: as, v ∈ b.flat) =
        fun v => (S v ∨ v ∈ a.flat) ∨ ∃ b ∈ as, v ∈ b.flat := by
      funext v
      simp only [List.mem_cons, exists_eq_or_imp, or_assoc]
    rw [key]
    exact this

theorem fieldMin_isMin (as : List (Arr Q)) : IsMin (fieldMin as) fun v => ∃ a ∈ as, v ∈ a.flat := by
  have := foldl_isMin as none (fun _ => False) (fun _ h => h)
  simpa [fieldMin] using this

theorem mem_scan {A : Type*} (lo hi : Q) (f : Q → List A) (l : List Q) (a : A)
    (h : a ∈ scan lo hi f l) : ∃ y ∈ l, lo ≤ y ∧ y ≤ hi ∧ a ∈ f y := by
  induction l with
  | nil => simp [scan] at h
  | cons y l ih =>
    rw [scan] at h
    split_ifs at h with h1 h2
    · obtain ⟨z, hz, h3⟩ := ih h
      exact ⟨z, List.mem_cons_of_mem _ hz, h3⟩
    · simp at h
    · rcases List.mem_append.1 h with h | h
      · exact ⟨y, by simp, not_lt.1 h1, not_lt.1 h2, h⟩
      · obtain ⟨z, hz, h3⟩ := ih h
        exact ⟨z, List.mem_cons_of_mem _ hz, h3⟩

theorem scan_mem {A : Type*} (lo hi : Q) (f : Q → List A) (l : List Q) (hl : l.Pairwise (· ≤ ·))
    (y : Q) (hy : y ∈ l) (h1 : lo ≤ y) (h2 : y ≤ hi) (a : A) (ha : a ∈ f y) :
    a ∈ scan lo hi f l := by
  induction l with
  | nil => simp at hy
  | cons x l ih =>
    rw [List.pairwise_cons] at hl
    rw [scan]
    rcases List.mem_cons.1 hy with rfl | hy
    · rw [if_neg (not_lt.2 h1), if_neg (not_lt.2 h2)]
      exact List.mem_append_left _ ha
    · have hx := hl.1 y hy
      have := ih hl.2 hy
      split_ifs with h3 h4
      · exact this
      · exact absurd h4 (not_lt.2 (hx.trans h2))
      · exact List.mem_append_right _ this

theorem scan_above {A : Type*} (lo hi : Q) (f : Q → List A) (l : List Q) (y : Q)
    (hy : l.head? = some y) (h1 : lo ≤ y) (h2 : hi < y) : scan lo hi f l = [] := by
  cases l with
  | nil => rfl
  | cons x l =>
    obtain rfl : x = y := by simpa using hy
    rw [scan, if_neg (not_lt.2 h1), if_pos h2]

theorem linspace_sorted (a b : Q) (n : ℕ) (h : a ≤ b) : (linspace a b n).Pairwise (· ≤ ·) := by
  unfold linspace
  split_ifs with h1
  · simp
  · rw [List.pairwise_map]
    refine List.Pairwise.imp ?_ List.pairwise_lt_range
    intro i j hij
    have hd : 0 ≤ (b - a) / ((n - 1 : ℕ) : Q) := div_nonneg (sub_nonneg.2 h) (Nat.cast_nonneg _)
    have : (i : Q) ≤ j := by exact_mod_cast hij.le
    linarith [mul_le_mul_of_nonneg_right this hd]

theorem linspace_head (a b : Q) (n : ℕ) (h : 0 < n) : (linspace a b n).head? = some a := by
  unfold linspace
  split_ifs with h1
  · rfl
  · cases n with
    | zero => omega
    | succ n => simp [List.range_succ_eq_map]

theorem nearestPoint_spec (X Y : List Q) (x y : Q) (hl : X.length = Y.length) (hne : X ≠ []) :
    nearestPoint X Y x y < X.length ∧
    ∀ i < X.length, dist2 x y (X.getD (nearestPoint X Y x y) 0) (Y.getD (nearestPoint X Y x y) 0)
      ≤ dist2 x y (X.getD i 0) (Y.getD i 0) := by
  have hpos : 0 < X.length := by
    rcases X with _ | ⟨a, X⟩
    · exact absurd rfl hne
    · simp
  set L := List.zipWith (fun a b => (a - x) ^ 2 + (b - y) ^ 2) X Y with hL
  have hlen : L.length = X.length := by simp [hL, hl]
  have hget : ∀ i < X.length, L[i]? = some (dist2 x y (X.getD i 0) (Y.getD i 0)) := by
    intro i hi
    have hi' : i < Y.length := hl ▸ hi
    rw [hL, List.getElem?_zipWith]
    simp [List.getElem?_eq_getElem hi, List.getElem?_eq_getElem hi', dist2]
  have hne' : L ≠ [] := by
    intro h
    rw [h] at hlen
    simp at hlen
    omega
  obtain ⟨d, h1, h2, -⟩ := PhysFiles.argmin_spec L hne'
  have hn : nearestPoint X Y x y = PhysFiles.argmin L := rfl
  rw [hn]
  have hi : PhysFiles.argmin L < X.length := by
    by_contra hi
    rw [List.getElem?_eq_none (by omega)] at h1
    cases h1
  refine ⟨hi, fun i hi2 => ?_⟩
  have hd := hget _ hi
  rw [h1] at hd
  rw [← Option.some.inj hd]
  exact h2 _ (List.mem_of_getElem? (hget i hi2))

theorem decimal_foldl (s : List Char) (n : ℕ) :
    s.foldl (fun n c => 10 * n + (c.toNat - '0'.toNat)) n = n * 10 ^ s.length + decimal s := by
  induction s generalizing n with
  | nil => simp [decimal]
  | cons c l ih =>
    rw [List.foldl_cons, ih, decimal, List.length_cons, pow_succ]
    ring

end Verif.Hexa
