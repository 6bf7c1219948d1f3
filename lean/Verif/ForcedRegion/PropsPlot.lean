import Verif.ForcedRegion.ModelPlot
import Verif.ForcedRegion.Props

/-! # C36: the figure of the forced modes -/

namespace Verif.ForcedRegion

noncomputable section
open Classical

/-! ## Specification -/

/-- A point of a drawn rectangle. -/
def InRect (r : Pt × ℝ × ℝ) (p : Pt) : Prop :=
  (r.1.1 ≤ p.1 ∧ p.1 ≤ r.1.1 + r.2.1) ∧ (r.1.2 ≤ p.2 ∧ p.2 ≤ r.1.2 + r.2.2)

/-- A point of a drawn arc of circle. -/
def OnArc (a : Arc) (p : Pt) : Prop :=
  ∃ φ, a.theta1 ≤ φ ∧ φ ≤ a.theta2 ∧
    p = (a.width / 2 * Real.cos (2 * Real.pi * (φ / 360)), a.width / 2 * Real.sin (2 * Real.pi * (φ / 360)))

/-- A point of a drawn segment. -/
def OnLine (l : Pt × Pt) (p : Pt) : Prop :=
  ∃ s : ℝ, 0 ≤ s ∧ s ≤ 1 ∧ p = ((1 - s) * l.1.1 + s * l.2.1, (1 - s) * l.1.2 + s * l.2.2)

/-- The wavevector of norm `k` at the angle `θ` from the vertical. -/
def polarPt (k θ : ℝ) : Pt := (k * Real.sin θ, k * Real.cos θ)

/-- A point inside the limits of the axes. -/
def Figure.Visible (f : Figure) (p : Pt) : Prop := 0 ≤ p.1 ∧ p.1 ≤ f.lim ∧ 0 ≤ p.2 ∧ p.2 ≤ f.lim

/-! ## Lemmas -/

theorem mem_forced2 {noF : ℕ → ℕ → Prop} {nky nkx : ℕ} {i : ℕ × ℕ} :
    i ∈ forced2 noF nky nkx ↔ i.1 < nky ∧ i.2 < nkx ∧ ¬ noF i.1 i.2 := by
  obtain ⟨a, b⟩ := i
  simp [forced2, and_assoc]

theorem mem_forced3 {noF : ℕ → ℕ → ℕ → Prop} {nkz nky nkx : ℕ} {i : ℕ × ℕ × ℕ} :
    i ∈ forced3 noF nkz nky nkx ↔
      i.1 < nkz ∧ i.2.1 < nky ∧ i.2.2 < nkx ∧ ¬ noF i.1 i.2.1 i.2.2 := by
  obtain ⟨a, b, c⟩ := i
  simp [forced3, and_assoc]

theorem axis_of_lt {m i : ℕ} (hi : i < 2 * m) (hn : i ≠ m) : ∃ a, AxisIndex m i a := by
  rcases lt_or_gt_of_ne hn with h | h
  · exact ⟨i, hi, by omega, by omega, Or.inl rfl⟩
  · exact ⟨(i : ℤ) - 2 * m, hi, by omega, by omega, Or.inr (by omega)⟩

theorem arc_iff {kw angle d : ℝ} {p : Pt} :
    OnArc ⟨2 * kw, 90 - degrees angle - 0.5 * degrees d, 90 - degrees angle + 0.5 * degrees d⟩ p ↔
      ∃ θ, |θ - angle| ≤ d / 2 ∧ p = polarPt kw θ := by
  have hpi := Real.pi_pos
  have hc : 0 < 180 / Real.pi := by positivity
  constructor
  · rintro ⟨φ, h1, h2, rfl⟩
    simp only [degrees] at h1 h2
    have e : 2 * Real.pi * (φ / 360) = Real.pi / 2 - (Real.pi / 2 - Real.pi / 180 * φ) := by ring
    refine ⟨Real.pi / 2 - Real.pi / 180 * φ, ?_, ?_⟩
    · have k1 : Real.pi / 180 * (90 - angle * (180 / Real.pi) - 0.5 * (d * (180 / Real.pi)))
          ≤ Real.pi / 180 * φ := mul_le_mul_of_nonneg_left h1 (by positivity)
      have k2 : Real.pi / 180 * φ ≤
          Real.pi / 180 * (90 - angle * (180 / Real.pi) + 0.5 * (d * (180 / Real.pi))) :=
        mul_le_mul_of_nonneg_left h2 (by positivity)
      have e1 : Real.pi / 180 * (90 - angle * (180 / Real.pi) - 0.5 * (d * (180 / Real.pi)))
          = Real.pi / 2 - angle - d / 2 := by field_simp; ring
      have e2 : Real.pi / 180 * (90 - angle * (180 / Real.pi) + 0.5 * (d * (180 / Real.pi)))
          = Real.pi / 2 - angle + d / 2 := by field_simp; ring
      rw [e1] at k1
      rw [e2] at k2
      rw [abs_le]
      constructor <;> linarith
    · rw [e]
      generalize Real.pi / 2 - Real.pi / 180 * φ = ψ
      rw [Real.cos_pi_div_two_sub, Real.sin_pi_div_two_sub, polarPt]
      simp
  · rintro ⟨θ, h, rfl⟩
    rw [abs_le] at h
    have e : 2 * Real.pi * ((90 - θ * (180 / Real.pi)) / 360) = Real.pi / 2 - θ := by
      field_simp; ring
    refine ⟨90 - θ * (180 / Real.pi), ?_, ?_, ?_⟩
    · have := mul_le_mul_of_nonneg_right (show θ ≤ angle + d / 2 by linarith) hc.le
      simp only [degrees]
      linarith
    · have := mul_le_mul_of_nonneg_right (show angle - d / 2 ≤ θ by linarith) hc.le
      simp only [degrees]
      linarith
    · rw [e, Real.cos_pi_div_two_sub, Real.sin_pi_div_two_sub, polarPt]
      simp

theorem line_iff {kmin kmax θ : ℝ} (hk : kmin ≤ kmax) {p : Pt} :
    OnLine ((kmin * Real.sin θ, kmin * Real.cos θ), (kmax * Real.sin θ, kmax * Real.cos θ)) p ↔
      ∃ k, (kmin ≤ k ∧ k ≤ kmax) ∧ p = polarPt k θ := by
  constructor
  · rintro ⟨s, h0, h1, rfl⟩
    refine ⟨(1 - s) * kmin + s * kmax, ⟨by nlinarith, by nlinarith⟩, ?_⟩
    simp only [polarPt, Prod.mk.injEq]
    constructor <;> ring
  · rintro ⟨k, ⟨h0, h1⟩, rfl⟩
    rcases eq_or_lt_of_le hk with h | h
    · have : k = kmin := le_antisymm (h ▸ h1) h0
      subst this
      exact ⟨0, le_refl _, by norm_num, by simp [polarPt]⟩
    · have hd : 0 < kmax - kmin := by linarith
      refine ⟨(k - kmin) / (kmax - kmin), by apply div_nonneg <;> linarith,
        by rw [div_le_one hd]; linarith, ?_⟩
      simp only [polarPt, Prod.mk.injEq]
      constructor
      · field_simp; ring
      · field_simp; ring

theorem plot2_ok {dky dkx nkmin nkmax angle : ℝ} {raw : DeltaAngle} {neg : Bool} {nky nkx : ℕ}
    {f : Figure} (h : plotRegion2 dky dkx nkmin nkmax angle raw neg nky nkx = some (some f)) :
    ∃ delta r, ensureRadians raw = some delta ∧
      region angle (kForcing [dky, dkx] nkmin) (kForcing [dky, dkx] nkmax) raw delta = some r ∧
      f.rect = r.1 ∧ f.arcs = r.2.1 ∧ f.lines = r.2.2 ∧
      (∀ p, p ∈ f.points ↔ ∃ iy ix, (iy < nky ∧ ix < nkx ∧
        ¬ anisoNoF2 dky dkx angle (kForcing [dky, dkx] nkmin) (kForcing [dky, dkx] nkmax) delta neg
          nky nkx iy ix) ∧ p = (dkx * ix, dky * adim nky iy)) ∧
      f.titleNb = f.points.length ∧ f.lim = 1.2 * kForcing [dky, dkx] nkmax ∧
      f.titleAngle = degrees angle ∧ f.titleNk = (nkmin * dky, nkmax * dky) ∧ f.xtick = dky := by
  unfold plotRegion2 at h
  simp only at h
  cases hd : ensureRadians raw with
  | none => rw [hd] at h; cases h
  | some delta =>
    rw [hd] at h
    simp only [Option.some.injEq, Option.map_eq_some_iff] at h
    obtain ⟨r, hr, rfl⟩ := h
    refine ⟨delta, r, rfl, hr, rfl, rfl, rfl, ?_, by simp, rfl, rfl, rfl, rfl⟩
    intro p
    simp only [List.mem_map, Prod.exists]
    constructor
    · rintro ⟨a, b, hm, rfl⟩
      exact ⟨a, b, mem_forced2.1 hm, rfl⟩
    · rintro ⟨a, b, hm, rfl⟩
      exact ⟨a, b, mem_forced2.2 hm, rfl⟩

/-- The forced modes in terms of the wavenumbers. -/
theorem forced_modes2 {dky dkx angle kmin kmax : ℝ} {neg : Bool} {my mx iy ix : ℕ}
    {delta : Option ℝ} (hy : iy < 2 * my) (hx : ix < mx + 1)
    (h : ¬ anisoNoF2 dky dkx angle kmin kmax delta neg (2 * my) (mx + 1) iy ix) :
    ∃ b, AxisIndex my iy b ∧ ix < mx ∧ adim (2 * my) iy = b := by
  have h1 : iy ≠ my := fun e => h (C36_anisotropic_nyquist_2d _ _ _ _ _ _ _ _ _ _ _ (Or.inl e))
  have h2 : ix ≠ mx := fun e => h (C36_anisotropic_nyquist_2d _ _ _ _ _ _ _ _ _ _ _ (Or.inr e))
  obtain ⟨b, hb⟩ := axis_of_lt hy h1
  exact ⟨b, hb, by omega, (axis_adim hb).1⟩

/-! ## Theorems -/

/-- **C36** (figure, 2D, box) Without `delta_angle`, the figure exists, its rectangle is the region of
the parameters (without the mirrored modes), the red points are exactly the wavevectors of the forced
modes, and the title gives the angle in degrees and the number of red points. -/
theorem C36_plot_box_2d (dky dkx nkmin nkmax angle : ℝ) (neg : Bool) (my mx : ℕ) :
    ∃ f r, plotRegion2 dky dkx nkmin nkmax angle .none neg (2 * my) (mx + 1) = some (some f) ∧
      f.rect = some r ∧
      (∀ p, InRect r p ↔ InBox (max dky (max dkx 0) * nkmin * Real.sin angle)
        (max dky (max dkx 0) * nkmax * Real.sin angle) (max dky (max dkx 0) * nkmin * Real.cos angle)
        (max dky (max dkx 0) * nkmax * Real.cos angle) false p.1 p.2) ∧
      (∀ p, p ∈ f.points ↔ ∃ (iy a : ℕ) (b : ℤ), AxisIndex my iy b ∧ a < mx ∧
        InBox (max dky (max dkx 0) * nkmin * Real.sin angle)
          (max dky (max dkx 0) * nkmax * Real.sin angle) (max dky (max dkx 0) * nkmin * Real.cos angle)
          (max dky (max dkx 0) * nkmax * Real.cos angle) neg (dkx * a) (dky * b) ∧
        p = (dkx * a, dky * b)) ∧
      f.titleNb = f.points.length ∧ f.titleAngle = angle * (180 / Real.pi) := by
  have hf : ∃ f, plotRegion2 dky dkx nkmin nkmax angle .none neg (2 * my) (mx + 1) = some (some f) :=
    ⟨_, rfl⟩
  obtain ⟨f, hf⟩ := hf
  obtain ⟨delta, r, h1, h2, h3, -, -, h4, h5, -, h6, -⟩ := plot2_ok hf
  cases h1
  simp only [region, Option.some.injEq] at h2
  subst h2
  refine ⟨f, _, hf, h3, ?_, ?_, h5, h6⟩
  · intro p
    simp only [InRect, InBox, corners, mkBox, kForcing, List.foldr_cons, List.foldr_nil,
      add_sub_cancel, Bool.false_eq_true, false_and, or_false, mul_comm (Real.sin angle),
      mul_comm (Real.cos angle)]
  · intro p
    rw [h4 p]
    constructor
    · rintro ⟨iy, ix, ⟨hy, hx, hn⟩, rfl⟩
      obtain ⟨b, hb, hix, hab⟩ := forced_modes2 hy hx hn
      refine ⟨iy, ix, b, hb, hix, ?_, by rw [hab]⟩
      simpa [kForcing] using (C36_anisotropic_2d dky dkx angle _ _ neg hb hix).1.1 hn
    · rintro ⟨iy, a, b, hb, ha, hin, rfl⟩
      refine ⟨iy, a, ⟨hb.1, by omega, ?_⟩, by rw [(axis_adim hb).1]⟩
      exact (C36_anisotropic_2d dky dkx angle _ _ neg hb ha).1.2 (by simpa [kForcing] using hin)

/-- **C36** (figure, 2D, sector) With a number for `delta_angle`, the figure exists; its full arcs and
segments are exactly the boundary of the region of the parameters (without the mirrored modes), in
polar coordinates from the vertical; the red points are exactly the wavevectors of the forced modes. -/
theorem C36_plot_sector_2d (dky dkx nkmin nkmax angle delta : ℝ) (neg : Bool) (my mx : ℕ)
    (hk : nkmin ≤ nkmax) :
    ∃ f, plotRegion2 dky dkx nkmin nkmax angle (.radians delta) neg (2 * my) (mx + 1) = some (some f) ∧
      f.rect = none ∧
      (∀ p, (∃ a ∈ f.arcs, OnArc a p) ↔ ∃ k θ, (k = max dky (max dkx 0) * nkmin ∨
        k = max dky (max dkx 0) * nkmax) ∧ |θ - angle| ≤ delta / 2 ∧ p = polarPt k θ) ∧
      (∀ p, (∃ l ∈ f.lines, OnLine l p) ↔ ∃ k θ, (max dky (max dkx 0) * nkmin ≤ k ∧
        k ≤ max dky (max dkx 0) * nkmax) ∧ (θ = angle - delta / 2 ∨ θ = angle + delta / 2) ∧
        p = polarPt k θ) ∧
      (∀ p, p ∈ f.points ↔ ∃ (iy a : ℕ) (b : ℤ), AxisIndex my iy b ∧ a < mx ∧
        InSector (max dky (max dkx 0) * nkmin) (max dky (max dkx 0) * nkmax) angle delta neg
          √((dkx * a) ^ 2 + (dky * b) ^ 2)
          (Real.arccos (dky * b / noz √((dkx * a) ^ 2 + (dky * b) ^ 2))) ∧
        p = (dkx * a, dky * b)) ∧
      f.titleNb = f.points.length ∧ f.titleAngle = angle * (180 / Real.pi) := by
  have hf : ∃ f, plotRegion2 dky dkx nkmin nkmax angle (.radians delta) neg (2 * my) (mx + 1)
      = some (some f) := ⟨_, rfl⟩
  obtain ⟨f, hf⟩ := hf
  obtain ⟨delta', r, h1, h2, h3, ha, hl, h4, h5, -, h6, -⟩ := plot2_ok hf
  cases h1
  simp only [region, Option.some.injEq] at h2
  subst h2
  have hK : kForcing [dky, dkx] nkmin = max dky (max dkx 0) * nkmin := by simp [kForcing]
  have hK' : kForcing [dky, dkx] nkmax = max dky (max dkx 0) * nkmax := by simp [kForcing]
  have hle : max dky (max dkx 0) * nkmin ≤ max dky (max dkx 0) * nkmax :=
    mul_le_mul_of_nonneg_left hk (le_max_of_le_right (le_max_right _ _))
  simp only [hK, hK'] at ha hl
  refine ⟨f, hf, h3, ?_, ?_, ?_, h5, h6⟩
  · intro p
    rw [ha]
    simp only [List.mem_cons, List.not_mem_nil, or_false, exists_eq_or_imp, exists_eq_left, arc_iff]
    constructor
    · rintro (⟨θ, h, rfl⟩ | ⟨θ, h, rfl⟩)
      · exact ⟨_, θ, Or.inl rfl, h, rfl⟩
      · exact ⟨_, θ, Or.inr rfl, h, rfl⟩
    · rintro ⟨k, θ, rfl | rfl, h, rfl⟩
      · exact Or.inl ⟨θ, h, rfl⟩
      · exact Or.inr ⟨θ, h, rfl⟩
  · intro p
    rw [hl]
    have e1 : angle - 0.5 * delta = angle - delta / 2 := by ring
    have e2 : angle + 0.5 * delta = angle + delta / 2 := by ring
    simp only [List.mem_cons, List.not_mem_nil, or_false, exists_eq_or_imp, exists_eq_left, corners,
      e1, e2, mul_comm (Real.sin _), mul_comm (Real.cos _), line_iff hle]
    constructor
    · rintro (⟨k, h, rfl⟩ | ⟨k, h, rfl⟩)
      · exact ⟨k, _, h, Or.inl rfl, rfl⟩
      · exact ⟨k, _, h, Or.inr rfl, rfl⟩
    · rintro ⟨k, θ, h, rfl | rfl, rfl⟩
      · exact Or.inl ⟨k, h, rfl⟩
      · exact Or.inr ⟨k, h, rfl⟩
  · intro p
    rw [h4 p]
    constructor
    · rintro ⟨iy, ix, ⟨hy, hx, hn⟩, rfl⟩
      obtain ⟨b, hb, hix, hab⟩ := forced_modes2 hy hx hn
      refine ⟨iy, ix, b, hb, hix, ?_, by rw [hab]⟩
      rw [← hK, ← hK']
      exact ((C36_anisotropic_2d dky dkx angle _ _ neg hb hix).2 delta).1 hn
    · rintro ⟨iy, a, b, hb, ha, hin, rfl⟩
      refine ⟨iy, a, ⟨hb.1, by omega, ?_⟩, by rw [(axis_adim hb).1]⟩
      rw [← hK, ← hK'] at hin
      exact ((C36_anisotropic_2d dky dkx angle _ _ neg hb ha).2 delta).2 hin

/-- **C36** (figure, partial) The forced modes whose vertical wavenumber is not negative are inside the
limits of the axes, for a box with an angle between 0 and 90 degrees.  What is missing: the mirrored
modes (`C36_plot_negative_violated`). -/
theorem C36_plot_visible_partial (dky dkx nkmin nkmax angle : ℝ) (neg : Bool) (my mx : ℕ) (f : Figure)
    (hx : 0 ≤ dkx) (h0 : 0 ≤ angle) (h90 : angle ≤ Real.pi / 2) (hn : 0 ≤ nkmax)
    (h : plotRegion2 dky dkx nkmin nkmax angle .none neg (2 * my) (mx + 1) = some (some f))
    (p : Pt) (hp : p ∈ f.points) (hv : 0 ≤ p.2) (hmin : 0 ≤ nkmin) : f.Visible p := by
  obtain ⟨delta, r, -, -, -, -, -, -, -, hlim, -⟩ := plot2_ok h
  obtain ⟨f', r', hf', -, -, hpts, -⟩ := C36_plot_box_2d dky dkx nkmin nkmax angle neg my mx
  rw [h] at hf'
  cases hf'
  obtain ⟨iy, a, b, -, -, hin, rfl⟩ := (hpts p).1 hp
  have hK : kForcing [dky, dkx] nkmax = max dky (max dkx 0) * nkmax := by simp [kForcing]
  rw [hK] at hlim
  set D := max dky (max dkx 0) with hD
  have hD0 : 0 ≤ D := le_max_of_le_right (le_max_right _ _)
  have hk : 0 ≤ D * nkmax := mul_nonneg hD0 hn
  have hs := Real.sin_le_one angle
  have hc := Real.cos_le_one angle
  have hc0 : 0 ≤ Real.cos angle := Real.cos_nonneg_of_neg_pi_div_two_le_of_le (by linarith) h90
  have hkm : 0 ≤ D * nkmin * Real.cos angle := mul_nonneg (mul_nonneg hD0 hmin) hc0
  have b1 : D * nkmax * Real.sin angle ≤ D * nkmax := by nlinarith
  have b2 : D * nkmax * Real.cos angle ≤ D * nkmax := by nlinarith
  have hv' : 0 ≤ dky * (b : ℝ) := hv
  obtain ⟨⟨i1, i2⟩, i3⟩ := hin
  simp only [Figure.Visible, hlim]
  refine ⟨by positivity, by linarith, hv', ?_⟩
  rcases i3 with ⟨j1, j2⟩ | ⟨-, j1, j2⟩
  · linarith
  · linarith

/-- **C36** (figure, 3D, box) Each red point is the horizontal and the vertical wavenumber of a forced
mode, and all the forced modes are drawn. -/
theorem C36_plot_points_3d (dkz dky dkx nkmin nkmax angle : ℝ) (neg : Bool) (raw : DeltaAngle)
    (nkz nky nkx : ℕ) (f : Figure)
    (h : plotRegion3 dkz dky dkx nkmin nkmax angle raw neg nkz nky nkx = some (some f)) :
    ∃ delta, ensureRadians raw = some delta ∧ f.titleNb = f.points.length ∧
      ∀ p, p ∈ f.points ↔ ∃ iz iy ix, iz < nkz ∧ iy < nky ∧ ix < nkx ∧
        ¬ anisoNoF3 dkz dky dkx angle (max dkz (max dky (max dkx 0)) * nkmin)
          (max dkz (max dky (max dkx 0)) * nkmax) delta neg nkz nky iz iy ix ∧
        p = (√((dkx * ix) ^ 2 + (dky * adim nky iy) ^ 2), dkz * adim nkz iz) := by
  unfold plotRegion3 at h
  simp only at h
  cases hd : ensureRadians raw with
  | none => rw [hd] at h; cases h
  | some delta =>
    rw [hd] at h
    simp only [Option.some.injEq, Option.map_eq_some_iff] at h
    obtain ⟨r, hr, rfl⟩ := h
    refine ⟨delta, rfl, by simp, ?_⟩
    intro p
    simp only [List.mem_map, Prod.exists, mem_forced3, kForcing, List.foldr_cons, List.foldr_nil]
    constructor
    · rintro ⟨a, b, c, ⟨h1, h2, h3, h4⟩, rfl⟩
      exact ⟨a, b, c, h1, h2, h3, h4, rfl⟩
    · rintro ⟨a, b, c, h1, h2, h3, h4, rfl⟩
      exact ⟨a, b, c, ⟨h1, h2, h3, h4⟩, rfl⟩

/-- **C36** (finding) Reading: the figure can be drawn for every forcing which can be created.  When
`delta_angle` is a text like `"10°"`, which the forcing accepts, the function fails, in 2D and in
3D. -/
theorem C36_plot_text_violated (dkz dky dkx nkmin nkmax angle x : ℝ) (neg : Bool) (nkz nky nkx : ℕ) :
    ensureRadians (.degrees x) = some (some (x * (Real.pi / 180))) ∧
    plotRegion2 dky dkx nkmin nkmax angle (.degrees x) neg nky nkx = some none ∧
    plotRegion3 dkz dky dkx nkmin nkmax angle (.degrees x) neg nkz nky nkx = some none :=
  ⟨rfl, rfl, rfl⟩

/-- **C36** (finding) Reading: the forced modes are seen on the figure.  With `kz_negative_enable`, a
forced mode with a negative vertical wavenumber is drawn outside the limits of the axes.  Witness: the
mode `(1, -1)` with `Lx = Ly = 2 pi`, the angle 45° and wavenumbers between 1 and 3. -/
theorem C36_plot_negative_violated :
    ∃ f p, plotRegion2 1 1 1 3 (Real.pi / 4) .none true (2 * 4) (4 + 1) = some (some f) ∧
      p ∈ f.points ∧ ¬ f.Visible p := by
  obtain ⟨f, r, hf, -, -, hpts, -⟩ := C36_plot_box_2d 1 1 1 3 (Real.pi / 4) true 4 4
  refine ⟨f, (1 * ((1 : ℕ) : ℝ), 1 * ((-1 : ℤ) : ℝ)), hf,
    (hpts _).2 ⟨7, 1, -1, ?_, by norm_num, ?_, rfl⟩, ?_⟩
  · simp only [AxisIndex]; omega
  · have h2 : √(2 : ℝ) ^ 2 = 2 := Real.sq_sqrt (by norm_num)
    have hp : 0 < √(2 : ℝ) := by positivity
    rw [Real.sin_pi_div_four, Real.cos_pi_div_four]
    have hm : max (1 : ℝ) (max 1 0) = 1 := by norm_num
    rw [hm]
    refine ⟨⟨by push_cast; nlinarith, by push_cast; nlinarith⟩, Or.inr ⟨rfl, ?_, ?_⟩⟩
    · push_cast; nlinarith
    · push_cast; nlinarith
  · rintro ⟨-, -, h, -⟩
    norm_num at h

/-- **C36** (finding) Reading: the wavenumbers of the title, "nk_min deltak_v" and "nk_max deltak_v",
are the limits of the region.  They are not when the vertical size of the domain is the largest one:
with `Ly = 2 Lx` the title gives one half of the limits. -/
theorem C36_plot_title_violated (nkmin nkmax angle dk : ℝ) (hdk : 0 < dk) (neg : Bool) (my mx : ℕ) :
    ∃ f, plotRegion2 (dk / 2) dk nkmin nkmax angle .none neg (2 * my) (mx + 1) = some (some f) ∧
      f.titleNk = (kForcing [dk / 2, dk] nkmin / 2, kForcing [dk / 2, dk] nkmax / 2) := by
  refine ⟨_, rfl, ?_⟩
  have : max (dk / 2) (max dk 0) = dk := by
    rw [max_eq_left hdk.le, max_eq_right (by linarith)]
  simp only [kForcing, List.foldr_cons, List.foldr_nil, this, Prod.mk.injEq]
  constructor <;> ring

/-- **C36** (finding) Reading: the ticks of the abscissa axis are the horizontal wavenumbers.  They are
multiples of the vertical `deltak`: with `Ly = 2 Lx` one tick out of two is not a horizontal
wavenumber. -/
theorem C36_plot_ticks_violated (nkmin nkmax angle dk : ℝ) (hdk : 0 < dk) (neg : Bool) (my mx : ℕ) :
    ∃ f, plotRegion2 (dk / 2) dk nkmin nkmax angle .none neg (2 * my) (mx + 1) = some (some f) ∧
      ∀ a : ℤ, f.xtick ≠ dk * a := by
  refine ⟨_, rfl, ?_⟩
  intro a ha
  have ha : dk / 2 = dk * a := ha
  have h1 : (a : ℝ) * 2 = 1 := by
    have : dk * (a * 2 - 1) = 0 := by linarith
    rcases mul_eq_zero.1 this with h | h
    · exact absurd h hdk.ne'
    · linarith
  have h2 : a * 2 = 1 := by exact_mod_cast h1
  omega

/-- The hypotheses of the partial theorem are satisfied: the mode `(1, 1)` of the same region. -/
example : ∃ f, plotRegion2 1 1 1 3 (Real.pi / 4) .none false (2 * 4) (4 + 1) = some (some f) ∧
    f.Visible (1 * ((1 : ℕ) : ℝ), 1 * ((1 : ℤ) : ℝ)) := by
  obtain ⟨f, r, hf, -, -, hpts, -⟩ := C36_plot_box_2d 1 1 1 3 (Real.pi / 4) false 4 4
  have hpi := Real.pi_pos
  refine ⟨f, hf, C36_plot_visible_partial 1 1 1 3 (Real.pi / 4) false 4 4 f (by norm_num)
    (by positivity) (by linarith) (by norm_num) hf _ ((hpts _).2 ⟨1, 1, 1, ?_, by norm_num, ?_, rfl⟩)
    (by norm_num) (by norm_num)⟩
  · simp only [AxisIndex]; omega
  · have h2 : √(2 : ℝ) ^ 2 = 2 := Real.sq_sqrt (by norm_num)
    have hp : 0 < √(2 : ℝ) := by positivity
    rw [Real.sin_pi_div_four, Real.cos_pi_div_four]
    have hm : max (1 : ℝ) (max 1 0) = 1 := by norm_num
    rw [hm]
    refine ⟨⟨by push_cast; nlinarith, by push_cast; nlinarith⟩, Or.inl ⟨?_, ?_⟩⟩
    · push_cast; nlinarith
    · push_cast; nlinarith

/-- The sector of 20 degrees around 45 degrees. -/
example : ∃ f, plotRegion2 1 1 1 3 (Real.pi / 4) (.radians (Real.pi / 9)) false (2 * 4) (4 + 1)
    = some (some f) ∧ ∃ a ∈ f.arcs, OnArc a (polarPt 3 (Real.pi / 4)) := by
  obtain ⟨f, hf, -, ha, -⟩ := C36_plot_sector_2d 1 1 1 3 (Real.pi / 4) (Real.pi / 9) false 4 4
    (by norm_num)
  have hpi := Real.pi_pos
  refine ⟨f, hf, (ha _).2 ⟨3, Real.pi / 4, Or.inr (by norm_num), ?_, rfl⟩⟩
  rw [sub_self, abs_zero]
  positivity

/-- A figure in 3D. -/
example : ∃ f, plotRegion3 1 1 1 1 3 (Real.pi / 4) .none false 8 8 5 = some (some f) := ⟨_, rfl⟩

end

end Verif.ForcedRegion
