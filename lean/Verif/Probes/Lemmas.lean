import Verif.Probes.Spec
import Verif.Modes.Lemmas
import Mathlib.Tactic.Linarith
import Mathlib.Tactic.Ring
import Mathlib.Tactic.FieldSimp
import Mathlib.Tactic.Positivity

/-! # Lemmas for C93 -/

namespace Verif.Probes

open Verif.Modes

theorem roundEven_int (k : ℤ) : roundEven (k : ℚ) = k := by
  simp [roundEven]

/-- Index of the point of the first probe. -/
def k0 (a : Axis) (p : Par) : ℤ := roundEven (p.lo / a.delta)

/-- Number of grid spacings between two probes. -/
def mult (a : Axis) (p : Par) : ℤ := max 1 (roundEven (p.delta / a.delta))

theorem mult_pos (a : Axis) (p : Par) : 0 < mult a p := lt_of_lt_of_le one_pos (le_max_left _ _)

theorem spacing_eq (a : Axis) (p : Par) (h : 0 < a.delta) : spacing a p = a.delta * mult a p := by
  unfold spacing mult
  rw [Int.cast_max, mul_max_of_nonneg _ _ h.le]; simp

/-- Number of probes. -/
def nb (a : Axis) (p : Par) : ℕ := ⌈(p.hi + 1 / 10 ^ 15 - first a p) / spacing a p⌉.toNat

theorem seq_eq (a : Axis) (p : Par) (h : 0 < a.delta) :
    seq a p = (List.range (nb a p)).map fun i : ℕ => a.delta * ((k0 a p + i * mult a p : ℤ) : ℚ) := by
  unfold seq arange
  refine List.map_congr_left fun i _ => ?_
  rw [spacing_eq a p h]
  simp only [first, k0]
  push_cast
  ring

theorem seq_length (a : Axis) (p : Par) : (seq a p).length = nb a p := by simp [seq, arange, nb]

theorem seq_get (a : Axis) (p : Par) (h : 0 < a.delta) (i : ℕ) (x : ℚ) :
    (seq a p)[i]? = some x ↔ i < nb a p ∧ x = a.delta * ((k0 a p + i * mult a p : ℤ) : ℚ) := by
  rw [seq_eq a p h, List.getElem?_map]
  rcases lt_or_ge i (nb a p) with hi | hi
  · rw [List.getElem?_range hi]; simp [hi, eq_comm]
  · rw [List.getElem?_eq_none (by simpa using hi)]; simp; omega

/-- A probe is at the point `k` of the grid if and only if `k` is the index of a probe. -/
theorem seq_get_grid (a : Axis) (p : Par) (h : 0 < a.delta) (i : ℕ) (k : ℤ) :
    (seq a p)[i]? = some (a.delta * (k : ℚ)) ↔ i < nb a p ∧ k = k0 a p + i * mult a p := by
  rw [seq_get a p h]
  refine and_congr_right fun _ => ?_
  rw [mul_right_inj' h.ne']
  exact Int.cast_inj

theorem origin_seq (a : Axis) (p : Par) (h : 0 < a.delta) (hn : 2 ≤ nb a p) :
    origin (seq a p) = .ok (a.delta * (k0 a p : ℚ), a.delta * (mult a p : ℚ)) := by
  have hmin : (seq a p).min? = some (a.delta * (k0 a p : ℚ)) := by
    rw [List.min?_eq_some_iff]
    constructor
    · exact List.mem_of_getElem? ((seq_get_grid a p h 0 _).2 ⟨by omega, by simp⟩)
    · intro b hb
      obtain ⟨i, hi⟩ := List.mem_iff_getElem?.1 hb
      rw [((seq_get a p h i b).1 hi).2]
      refine mul_le_mul_of_nonneg_left ?_ h.le
      have : k0 a p ≤ k0 a p + i * mult a p := by
        have := mult_pos a p
        have : 0 ≤ (i : ℤ) * mult a p := by positivity
        omega
      exact_mod_cast this
  have h1 : (seq a p)[1]? = some (a.delta * ((k0 a p + mult a p : ℤ) : ℚ)) := (seq_get_grid a p h 1 _).2 ⟨by omega, by simp⟩
  unfold origin
  simp only [hmin, h1]
  push_cast
  congr 2
  ring

theorem cellIdx_grid (a : Axis) (p : Par) (h : 0 < a.delta) (i : ℕ) :
    cellIdx (a.delta * (k0 a p : ℚ), a.delta * (mult a p : ℚ)) (a.delta * ((k0 a p + i * mult a p : ℤ) : ℚ)) = i := by
  unfold cellIdx
  have hm : (mult a p : ℚ) ≠ 0 := by have := mult_pos a p; exact_mod_cast this.ne'
  have h' := h.ne'
  have : (a.delta * ((k0 a p + i * mult a p : ℤ) : ℚ) - a.delta * (k0 a p : ℚ)) / (a.delta * (mult a p : ℚ)) = ((i : ℤ) : ℚ) := by
    push_cast
    field_simp
    ring
  simp only [this]
  exact roundEven_int _

theorem mem_seq (a : Axis) (p : Par) (h : 0 < a.delta) (x : ℚ) :
    x ∈ seq a p ↔ ∃ i < nb a p, x = a.delta * ((k0 a p + i * mult a p : ℤ) : ℚ) := by
  rw [List.mem_iff_getElem?]
  simp only [seq_get a p h]

/-- The indices of the probes of one direction in a part. -/
def gridSeq (a : Axis) (p : Par) (b : Part) : List ℕ :=
  (((List.range (nb a p)).map fun i : ℕ => k0 a p + i * mult a p).filter fun k => decide ((b.lo : ℤ) ≤ k) && decide (k ≤ b.lo + b.len - 1)).map
    Int.toNat

theorem locSeq_eq (a : Axis) (p : Par) (h : 0 < a.delta) (b : Part) : locSeq a p b = (gridSeq a p b).map fun k : ℕ => a.delta * (k : ℚ) := by
  unfold locSeq gridSeq
  rw [seq_eq a p h, List.filter_map, List.filter_map, List.map_map, List.map_map, ]
  have hf : ((fun x => decide (a.delta * (b.lo : ℚ) ≤ x) && decide (x ≤ a.delta * ((b.lo : ℚ) + b.len - 1))) ∘
        fun i : ℕ => a.delta * ((k0 a p + i * mult a p : ℤ) : ℚ))
      = ((fun k : ℤ => decide ((b.lo : ℤ) ≤ k) && decide (k ≤ b.lo + b.len - 1)) ∘ fun i : ℕ => k0 a p + i * mult a p) := by
    funext i
    simp only [Function.comp_apply]
    generalize k0 a p + i * mult a p = k
    have h1 : a.delta * (b.lo : ℚ) ≤ a.delta * (k : ℚ) ↔ (b.lo : ℤ) ≤ k := by
      rw [mul_le_mul_iff_right₀ h]; exact_mod_cast Iff.rfl
    have h2 : a.delta * (k : ℚ) ≤ a.delta * ((b.lo : ℚ) + b.len - 1) ↔ k ≤ b.lo + b.len - 1 := by
      rw [mul_le_mul_iff_right₀ h]; exact_mod_cast Iff.rfl
    simp only [h1, h2]
  rw [hf]
  refine List.map_congr_left fun i hi => ?_
  have := (List.mem_filter.1 hi).2
  simp only [Function.comp_apply, Bool.and_eq_true, decide_eq_true_eq] at this
  simp only [Function.comp_apply]
  congr 1
  have h3 : ((k0 a p + i * mult a p).toNat : ℤ) = k0 a p + i * mult a p := Int.toNat_of_nonneg (by omega)
  have h4 : (((k0 a p + i * mult a p).toNat : ℕ) : ℚ) = (((k0 a p + i * mult a p).toNat : ℤ) : ℚ) := (Int.cast_natCast _).symm
  rw [h4, h3]

theorem mem_gridSeq (a : Axis) (p : Par) (b : Part) (g : ℕ) :
    g ∈ gridSeq a p b ↔ (b.lo ≤ g ∧ g < b.lo + b.len) ∧ ∃ i < nb a p, (g : ℤ) = k0 a p + i * mult a p := by
  unfold gridSeq
  simp only [List.mem_map, List.mem_filter, List.mem_range, Bool.and_eq_true, decide_eq_true_eq]
  constructor
  · rintro ⟨k, ⟨⟨i, hi, rfl⟩, h1, h2⟩, rfl⟩
    exact ⟨by omega, i, hi, by omega⟩
  · rintro ⟨h, i, hi, hg⟩
    exact ⟨(g : ℤ), ⟨⟨i, hi, hg.symm⟩, by omega, by omega⟩, by simp⟩

theorem locIdx_grid (a : Axis) (h : 0 < a.delta) (b : Part) (g : ℕ) (hg : b.lo ≤ g) : locIdx a b (a.delta * (g : ℚ)) = ((g - b.lo : ℕ) : ℤ) := by
  unfold locIdx pyInt
  have : (a.delta * (g : ℚ) - a.delta * (b.lo : ℚ)) / a.delta = (((g - b.lo : ℕ) : ℤ) : ℚ) := by
    have := h.ne'
    rw [Int.cast_natCast, Nat.cast_sub hg]
    field_simp
  rw [this, if_pos (by positivity), Int.floor_intCast]

/-- The points of the grid with a probe in a block. -/
def gridProbes (s : Setup) (b : Block) : List (ℕ × ℕ × ℕ) :=
  (gridSeq s.ax s.px b.x).flatMap fun x => (gridSeq s.ay s.py b.y).flatMap fun y => (gridSeq s.az s.pz b.z).map fun z => (z, y, x)

theorem mem_gridProbes (s : Setup) (b : Block) (g : ℕ × ℕ × ℕ) : g ∈ gridProbes s b ↔
    b.Has g ∧ (∃ i < nb s.az s.pz, (g.1 : ℤ) = k0 s.az s.pz + i * mult s.az s.pz) ∧
    (∃ i < nb s.ay s.py, (g.2.1 : ℤ) = k0 s.ay s.py + i * mult s.ay s.py) ∧
    (∃ i < nb s.ax s.px, (g.2.2 : ℤ) = k0 s.ax s.px + i * mult s.ax s.px) := by
  obtain ⟨z, y, x⟩ := g
  simp only [gridProbes, List.mem_flatMap, List.mem_map, Prod.mk.injEq, mem_gridSeq, Block.Has]
  constructor
  · rintro ⟨x', ⟨hx, hx'⟩, y', ⟨hy, hy'⟩, z', ⟨hz, hz'⟩, rfl, rfl, rfl⟩
    exact ⟨⟨hz, hy, hx⟩, hz', hy', hx'⟩
  · rintro ⟨⟨hz, hy, hx⟩, hz', hy', hx'⟩
    exact ⟨x, ⟨hx, hx'⟩, y, ⟨hy, hy'⟩, z, ⟨hz, hz'⟩, rfl, rfl, rfl⟩

theorem localIndices_eq (s : Setup) (hs : s.Ok) (b : Block) : localIndices s b =
    (gridProbes s b).map fun g => (((g.1 - b.z.lo : ℕ) : ℤ), ((g.2.1 - b.y.lo : ℕ) : ℤ), ((g.2.2 - b.x.lo : ℕ) : ℤ)) := by
  unfold localIndices gridProbes
  rw [locSeq_eq _ _ hs.2.2, locSeq_eq _ _ hs.2.1, locSeq_eq _ _ hs.1, List.flatMap_map, List.map_flatMap]
  refine List.flatMap_congr fun x hx => ?_
  rw [List.flatMap_map, List.map_flatMap]
  refine List.flatMap_congr fun y hy => ?_
  rw [List.map_map, List.map_map]
  refine List.map_congr_left fun z hz => ?_
  simp only [Function.comp_apply]
  rw [locIdx_grid _ hs.1 _ _ ((mem_gridSeq _ _ _ _).1 hz).1.1, locIdx_grid _ hs.2.1 _ _ ((mem_gridSeq _ _ _ _).1 hy).1.1,
    locIdx_grid _ hs.2.2 _ _ ((mem_gridSeq _ _ _ _).1 hx).1.1]

theorem pyIdx_nat {n i : ℕ} (h : i < n) : pyIdx n (i : ℤ) = some i := by
  unfold pyIdx; simp [h]

theorem probe_eq {V : Type*} (b : Block) (u : ℕ × ℕ × ℕ → V) (l : List (ℕ × ℕ × ℕ)) (h : ∀ g ∈ l, b.Has g) :
    probe b u (l.map fun g => (((g.1 - b.z.lo : ℕ) : ℤ), ((g.2.1 - b.y.lo : ℕ) : ℤ), ((g.2.2 - b.x.lo : ℕ) : ℤ))) = .ok (l.map u) := by
  induction l with
  | nil => rfl
  | cons g l ih =>
    obtain ⟨h1, h2, h3⟩ := h g (by simp)
    rw [List.map_cons, probe]
    simp only [pyIdx3, pyIdx_nat (show g.1 - b.z.lo < b.z.len by omega), pyIdx_nat (show g.2.1 - b.y.lo < b.y.len by omega),
      pyIdx_nat (show g.2.2 - b.x.lo < b.x.len by omega), ih fun g hg => h g (by simp [hg])]
    simp only [Nat.add_sub_cancel' h1.1, Nat.add_sub_cancel' h2.1, Nat.add_sub_cancel' h3.1]
    rfl

theorem gridProbes_has (s : Setup) (b : Block) : ∀ g ∈ gridProbes s b, b.Has g := fun g hg => ((mem_gridProbes s b g).1 hg).1

theorem coords_eq (s : Setup) (hs : s.Ok) (b : Block) : coords s b = .ok ((gridProbes s b).map s.position) := by
  rw [coords, localIndices_eq s hs, probe_eq b _ _ (gridProbes_has s b)]
  rfl

theorem mapM_ok {A B E : Type} (l : List A) (f : A → Except E B) (g : A → B) (h : ∀ a ∈ l, f a = .ok (g a)) : l.mapM f = .ok (l.map g) := by
  induction l with
  | nil => rfl
  | cons a l ih =>
    rw [List.mapM_cons, h a (by simp), ih fun b hb => h b (by simp [hb])]
    rfl

/-- What the processes write. -/
def rankOf {V : Type} (s : Setup) (b : Block) (chunks : List (List (ℚ × (ℕ × ℕ × ℕ → V)))) : Rank V :=
  ⟨(gridProbes s b).map s.position, chunks.map fun ch => ch.map fun r => (r.1, (gridProbes s b).map r.2)⟩

theorem writeRank_eq {V : Type} (s : Setup) (hs : s.Ok) (b : Block) (chunks : List (List (ℚ × (ℕ × ℕ × ℕ → V)))) :
    writeRank s b chunks = .ok (if gridProbes s b = [] then none else some (rankOf s b chunks)) := by
  unfold writeRank
  have h0 : localIndices s b = [] ↔ gridProbes s b = [] := by rw [localIndices_eq s hs]; simp
  by_cases h : gridProbes s b = []
  · simp [h0, h]
  · simp only [h0, h, if_false, coords_eq s hs]
    rw [mapM_ok chunks _ (fun ch => ch.map fun r => (r.1, (gridProbes s b).map r.2))]
    · rfl
    · intro ch _
      refine mapM_ok ch _ _ fun r _ => ?_
      rw [localIndices_eq s hs, probe_eq b _ _ (gridProbes_has s b)]
      rfl

/-- The point of the grid of a cell. -/
def gridOf (s : Setup) (c : ℕ × ℕ × ℕ) : ℤ × ℤ × ℤ :=
  (k0 s.az s.pz + c.1 * mult s.az s.pz, k0 s.ay s.py + c.2.1 * mult s.ay s.py, k0 s.ax s.px + c.2.2 * mult s.ax s.px)

def toInt (g : ℕ × ℕ × ℕ) : ℤ × ℤ × ℤ := (g.1, g.2.1, g.2.2)

/-- The cell is in the arrays. -/
def InShape (s : Setup) (c : ℕ × ℕ × ℕ) : Prop := c.1 < nb s.az s.pz ∧ c.2.1 < nb s.ay s.py ∧ c.2.2 < nb s.ax s.px

theorem probeAt_iff (s : Setup) (hs : s.Ok) (c g : ℕ × ℕ × ℕ) : s.probeAt c (s.position g) ↔ InShape s c ∧ gridOf s c = toInt g := by
  have e : ∀ n : ℕ, (n : ℚ) = ((n : ℤ) : ℚ) := fun n => by simp
  simp only [Setup.probeAt, Setup.position]
  rw [e g.1, e g.2.1, e g.2.2, seq_get_grid _ _ hs.1, seq_get_grid _ _ hs.2.1, seq_get_grid _ _ hs.2.2]
  simp only [InShape, gridOf, toInt, Prod.mk.injEq]
  constructor
  · rintro ⟨⟨a, b⟩, ⟨c, d⟩, e, f⟩; exact ⟨⟨a, c, e⟩, b.symm, d.symm, f.symm⟩
  · rintro ⟨⟨a, c, e⟩, b, d, f⟩; exact ⟨⟨a, b.symm⟩, ⟨c, d.symm⟩, e, f.symm⟩

theorem mem_gridProbes' (s : Setup) (b : Block) (g : ℕ × ℕ × ℕ) : g ∈ gridProbes s b ↔ b.Has g ∧ ∃ c, InShape s c ∧ gridOf s c = toInt g := by
  rw [mem_gridProbes]
  refine and_congr_right fun _ => ?_
  constructor
  · rintro ⟨⟨i, hi, e1⟩, ⟨j, hj, e2⟩, k, hk, e3⟩
    exact ⟨(i, j, k), ⟨hi, hj, hk⟩, by simp only [gridOf, toInt, e1, e2, e3]⟩
  · rintro ⟨⟨i, j, k⟩, ⟨hi, hj, hk⟩, e⟩
    simp only [gridOf, toInt, Prod.mk.injEq] at e
    exact ⟨⟨i, hi, e.1.symm⟩, ⟨j, hj, e.2.1.symm⟩, k, hk, e.2.2.symm⟩

theorem gridOf_inj (s : Setup) {c c' : ℕ × ℕ × ℕ} (h : gridOf s c = gridOf s c') : c = c' := by
  have key : ∀ (k m : ℤ) (i j : ℕ), 0 < m → k + i * m = k + j * m → i = j := by
    intro k m i j hm h
    have h1 : (i : ℤ) * m = j * m := by linarith
    have h2 := mul_right_cancel₀ hm.ne' h1
    exact_mod_cast h2
  obtain ⟨i, j, k⟩ := c
  obtain ⟨i', j', k'⟩ := c'
  simp only [gridOf, Prod.mk.injEq] at h
  rw [key _ _ _ _ (mult_pos _ _) h.1, key _ _ _ _ (mult_pos _ _) h.2.1, key _ _ _ _ (mult_pos _ _) h.2.2]

abbrev oOf (a : Axis) (p : Par) : ℚ × ℚ := (a.delta * (k0 a p : ℚ), a.delta * (mult a p : ℚ))

abbrev shOf (s : Setup) : ℕ × ℕ × ℕ := ((seq s.az s.pz).length, (seq s.ay s.py).length, (seq s.ax s.px).length)

theorem writeCells_eq {V : Type} (s : Setup) (hs : s.Ok) (u : ℕ × ℕ × ℕ → V) (l : List (ℕ × ℕ × ℕ))
    (hl : ∀ g ∈ l, ∃ c, InShape s c ∧ gridOf s c = toInt g) (arr : Arr V) :
    ∃ arr', writeCells (shOf s) (oOf s.az s.pz) (oOf s.ay s.py) (oOf s.ax s.px) ((l.map s.position).zip (l.map u)) arr = .ok arr' ∧
      (∀ c g, g ∈ l → gridOf s c = toInt g → arr' c = some (u g)) ∧ (∀ c, (∀ g ∈ l, gridOf s c ≠ toInt g) → arr' c = arr c) := by
  induction l generalizing arr with
  | nil => exact ⟨arr, rfl, by simp, fun _ _ => rfl⟩
  | cons g l ih =>
    obtain ⟨c, hc, e⟩ := hl g (by simp)
    obtain ⟨arr', h1, h2, h3⟩ := ih (fun g hg => hl g (by simp [hg])) (Function.update arr c (some (u g)))
    refine ⟨arr', ?_, ?_, ?_⟩
    · rw [List.map_cons, List.map_cons, List.zip_cons_cons]
      simp only [Setup.position]
      rw [writeCells]
      have e' : ∀ n : ℕ, (n : ℚ) = ((n : ℤ) : ℚ) := fun n => by simp
      simp only [gridOf, toInt, Prod.mk.injEq] at e
      rw [e' g.1, e' g.2.1, e' g.2.2, ← e.1, ← e.2.1, ← e.2.2, cellIdx_grid _ _ hs.1, cellIdx_grid _ _ hs.2.1, cellIdx_grid _ _ hs.2.2]
      simp only [shOf, seq_length] at h1 ⊢
      simp only [pyIdx3, pyIdx_nat hc.1, pyIdx_nat hc.2.1, pyIdx_nat hc.2.2]
      exact h1
    · intro c' g' hg' e2
      by_cases hm : g' ∈ l
      · exact h2 c' g' hm e2
      · have hgg : g' = g := by simpa [hm] using hg'
        subst hgg
        have : c' = c := gridOf_inj s (e2.trans e.symm)
        subst this
        rw [h3 c' fun g'' hg'' e3 => hm ?_, Function.update_self]
        have : toInt g' = toInt g'' := e2.symm.trans e3
        simp only [toInt, Prod.mk.injEq, Nat.cast_inj] at this
        have : g' = g'' := by ext1; exact this.1; ext1; exact this.2.1; exact this.2.2
        rw [this]; exact hg''
    · intro c' hc'
      rw [h3 c' fun g' hg' => hc' g' (by simp [hg']), Function.update_of_ne]
      rintro rfl
      exact hc' g (by simp) e

theorem fromRank_eq {V : Type} (gl : List (ℕ × ℕ × ℕ)) (t : ℚ) (u : ℕ × ℕ × ℕ → V) (cs : List (ℚ × ℚ × ℚ))
    (chunks : List (List (ℚ × (ℕ × ℕ × ℕ → V)))) (hne : ∀ ch ∈ chunks, ch ≠ [])
    (hinc : (chunks.flatten.map Prod.fst).Pairwise (· < ·)) (hmem : (t, u) ∈ chunks.flatten) (sh : ℕ × ℕ × ℕ) (oz oy ox : ℚ × ℚ)
    (arr : Arr V) :
    fromRank sh oz oy ox t cs (chunks.map fun ch => ch.map fun r => (r.1, gl.map r.2)) arr = writeCells sh oz oy ox (cs.zip (gl.map u)) arr := by
  induction chunks with
  | nil => simp at hmem
  | cons ch chunks ih =>
    rw [List.map_cons, fromRank]
    rw [List.flatten_cons, List.map_append, List.pairwise_append] at hinc
    obtain ⟨hi1, hi2, hi3⟩ := hinc
    have hch := hne ch (by simp)
    obtain ⟨r0, hr0⟩ : ∃ r0, ch.head? = some r0 := by
      cases ch with
      | nil => exact absurd rfl hch
      | cons a l => exact ⟨a, rfl⟩
    obtain ⟨r1, hr1⟩ : ∃ r1, ch.getLast? = some r1 := ⟨_, List.getLast?_eq_getLast_of_ne_nil hch⟩
    simp only [List.head?_map, List.getLast?_map, hr0, hr1, Option.map_some]
    have hr1m : r1 ∈ ch := List.mem_of_getLast? hr1
    have hr0m : r0 ∈ ch := List.mem_of_head? hr0
    rw [List.flatten_cons, List.mem_append] at hmem
    by_cases h : (t, u) ∈ ch
    · -- in this file
      have hle : r0.1 ≤ t := by
        obtain ⟨l, rfl⟩ : ∃ l, ch = r0 :: l := by
          cases ch with
          | nil => exact absurd rfl hch
          | cons a l => simp at hr0; exact ⟨l, by rw [hr0]⟩
        rcases List.mem_cons.1 h with h | h
        · rw [← h]
        · rw [List.map_cons, List.pairwise_cons] at hi1
          exact (hi1.1 t (List.mem_map.2 ⟨_, h, rfl⟩)).le
      have hge : t ≤ r1.1 := by
        have hd : ch = ch.dropLast ++ [r1] := by
          rw [List.getLast?_eq_getLast_of_ne_nil hch] at hr1
          rw [← Option.some.inj hr1]; exact (List.dropLast_append_getLast hch).symm
        rw [hd] at h hi1
        rcases List.mem_append.1 h with h | h
        · rw [List.map_append, List.pairwise_append] at hi1
          exact (hi1.2.2 t (List.mem_map.2 ⟨_, h, rfl⟩) r1.1 (by simp)).le
        · simp at h; rw [← h]
      rw [if_neg (by push Not; exact ⟨hle, hge⟩)]
      have hf : ∀ l : List (ℚ × (ℕ × ℕ × ℕ → V)), (l.map Prod.fst).Pairwise (· < ·) → (t, u) ∈ l →
          ((l.map fun r => (r.1, gl.map r.2)).filter fun r => decide (r.1 = t)) = [(t, gl.map u)] := by
        intro l
        induction l with
        | nil => simp
        | cons a l ihl =>
          intro hp hm
          rw [List.map_cons, List.pairwise_cons] at hp
          rcases List.mem_cons.1 hm with hm | hm
          · subst hm
            have : ((l.map fun r => (r.1, gl.map r.2)).filter fun r => decide (r.1 = t)) = [] := by
              rw [List.filter_eq_nil_iff]
              intro r hr
              obtain ⟨r', hr', rfl⟩ := List.mem_map.1 hr
              have := hp.1 r'.1 (List.mem_map.2 ⟨_, hr', rfl⟩)
              simp only [decide_eq_true_eq]
              exact this.ne'
            rw [List.map_cons, List.filter_cons, this]
            simp
          · have := hp.1 t (List.mem_map.2 ⟨_, hm, rfl⟩)
            rw [List.map_cons, List.filter_cons, ihl hp.2 hm]
            simp [this.ne]
      rw [hf ch hi1 h]
    · have hm := hmem.resolve_left h
      have hlt : r1.1 < t := hi3 r1.1 (List.mem_map.2 ⟨_, hr1m, rfl⟩) t (List.mem_map.2 ⟨_, hm, rfl⟩)
      rw [if_pos (Or.inr hlt)]
      exact ih (fun ch hc => hne ch (by simp [hc])) hi2 hm

theorem toInt_inj {g g' : ℕ × ℕ × ℕ} (h : toInt g = toInt g') : g = g' := by
  simp only [toInt, Prod.mk.injEq, Nat.cast_inj] at h
  ext1
  · exact h.1
  · ext1
    · exact h.2.1
    · exact h.2.2

theorem fromRanks_eq {V : Type} (s : Setup) (hs : s.Ok) (hist : List (ℚ × (ℕ × ℕ × ℕ → V)))
    (hinc : (hist.map Prod.fst).Pairwise (· < ·)) (t : ℚ) (u : ℕ × ℕ × ℕ → V) (hmem : (t, u) ∈ hist)
    (runs : List (Block × List (List (ℚ × (ℕ × ℕ × ℕ → V))))) (hruns : ∀ r ∈ runs, Divided hist r.2) (arr : Arr V) :
    ∃ arr', fromRanks (shOf s) (oOf s.az s.pz) (oOf s.ay s.py) (oOf s.ax s.px) t (runs.map fun r => rankOf s r.1 r.2) arr = .ok arr' ∧
      (∀ c g, (∃ r ∈ runs, g ∈ gridProbes s r.1) → gridOf s c = toInt g → arr' c = some (u g)) ∧
      (∀ c, (∀ r ∈ runs, ∀ g ∈ gridProbes s r.1, gridOf s c ≠ toInt g) → arr' c = arr c) := by
  induction runs generalizing arr with
  | nil => exact ⟨arr, rfl, by simp, fun _ _ => rfl⟩
  | cons r runs ih =>
    obtain ⟨hfl, hne⟩ := hruns r (by simp)
    obtain ⟨a1, h1, h2, h3⟩ := writeCells_eq s hs u (gridProbes s r.1) (fun g hg => ((mem_gridProbes' s r.1 g).1 hg).2) arr
    obtain ⟨a2, h4, h5, h6⟩ := ih (fun r hr => hruns r (by simp [hr])) a1
    refine ⟨a2, ?_, ?_, ?_⟩
    · rw [List.map_cons, fromRanks]
      simp only [rankOf]
      rw [fromRank_eq (gridProbes s r.1) t u _ r.2 hne (by rw [hfl]; exact hinc) (by rw [hfl]; exact hmem), h1]
      exact h4
    · rintro c g ⟨r', hr', hg⟩ e
      by_cases hlater : ∃ r ∈ runs, g ∈ gridProbes s r.1
      · exact h5 c g hlater e
      · have hrr : g ∈ gridProbes s r.1 := by
          rcases List.mem_cons.1 hr' with rfl | h
          · exact hg
          · exact absurd ⟨r', h, hg⟩ hlater
        rw [h6 c fun r'' hr'' g'' hg'' e' => hlater ⟨r'', hr'', by rw [toInt_inj (e.symm.trans e')]; exact hg''⟩]
        exact h2 c g hrr e
    · intro c hc
      rw [h6 c fun r' hr' => hc r' (by simp [hr']), h3 c (hc r (by simp))]

end Verif.Probes
