import Verif.SpatioTemporal.ModelTPlot
import Verif.SpatioTemporal.PropsPlot

/-!
Property theorems about the files of the temporal spectra and their figure.
-/

namespace Verif.SpatioTemporal

/-- The texts of numbers and types contain no `_`; the region of a box of dimension `nb / 2` has
`nb` numbers. -/
structure Req.Valid (nb : ℕ) (r : Req) : Prop where
  length : r.region.length = nb
  region : ∀ x ∈ r.region, '_' ∉ x
  tmin : '_' ∉ r.tmin
  tmax : '_' ∉ r.tmax
  dtype : ∀ d ∈ r.dtype, '_' ∉ d

/-- The parts of the name of the file. -/
def parts (r : Req) : List Txt := r.region ++ [r.tmin, r.tmax] ++ r.dtype.toList

theorem joinUnder_append (l m : List Txt) (hl : l ≠ []) (hm : m ≠ []) :
    joinUnder (l ++ m) = joinUnder l ++ '_' :: joinUnder m := by
  induction l with
  | nil => exact absurd rfl hl
  | cons a l ih =>
    cases l with
    | nil =>
      cases m with
      | nil => exact absurd rfl hm
      | cons b m => simp [joinUnder]
    | cons b l =>
      have := ih (by simp)
      simp only [List.cons_append] at this ⊢
      simp [joinUnder, this]

theorem savedName_eq (r : Req) (h : r.region ≠ []) :
    savedName r = "periodogram_".toList ++ (joinUnder (parts r) ++ ".h5".toList) := by
  generalize hp : "periodogram_".toList = p
  generalize hs : ".h5".toList = s
  rcases hd : r.dtype with _ | d
  · simp [savedName, parts, hd, hp, hs, joinUnder_append _ _ h, joinUnder]
  · simp [savedName, parts, hd, hp, hs, joinUnder_append _ _ h, joinUnder]

theorem split_inj {a b x y : Txt} (ha : '_' ∉ a) (hb : '_' ∉ b)
    (h : a ++ '_' :: x = b ++ '_' :: y) : a = b ∧ x = y := by
  induction a generalizing b with
  | nil =>
    cases b with
    | nil => simpa using h
    | cons c b => simp at h hb; exact absurd h.1 hb.1
  | cons c a ih =>
    cases b with
    | nil => simp at h ha; exact absurd h.1.symm ha.1
    | cons d b =>
      simp at h ha hb
      obtain ⟨e, e'⟩ := ih ha.2 hb.2 h.2
      exact ⟨by rw [h.1, e], e'⟩

theorem joinUnder_inj : ∀ (l m : List Txt), l ≠ [] → m ≠ [] → (∀ x ∈ l, '_' ∉ x) →
    (∀ x ∈ m, '_' ∉ x) → joinUnder l = joinUnder m → l = m
  | [], _, hl, _, _, _, _ => absurd rfl hl
  | _ :: _, [], _, hm, _, _, _ => absurd rfl hm
  | [a], [b], _, _, _, _, h => by simpa [joinUnder] using h
  | [a], b :: c :: m, _, _, hl, _, h => by
    simp only [joinUnder] at h
    exact absurd (h ▸ (by simp : '_' ∈ b ++ '_' :: joinUnder (c :: m))) (hl a (by simp))
  | a :: c :: l, [b], _, _, _, hm, h => by
    simp only [joinUnder] at h
    exact absurd (h ▸ (by simp : '_' ∈ a ++ '_' :: joinUnder (c :: l))) (hm b (by simp))
  | a :: c :: l, b :: d :: m, _, _, hl, hm, h => by
    simp only [joinUnder] at h
    obtain ⟨e, e'⟩ := split_inj (hl a (by simp)) (hm b (by simp)) h
    rw [e, joinUnder_inj (c :: l) (d :: m) (by simp) (by simp) (fun x hx => hl x (by simp [hx]))
      (fun x hx => hm x (by simp [hx])) e']

/-- **C62**: two different requests (region, times, type) have different files. -/
theorem C62_temporal_file_names (nb : ℕ) (hnb : 0 < nb) (r r' : Req) (h : r.Valid nb)
    (h' : r'.Valid nb) (e : savedName r = savedName r') : r = r' := by
  have n : ∀ q : Req, q.Valid nb → q.region ≠ [] := fun q hq e => by
    have := hq.length; rw [e] at this; simp at this; omega
  have no : ∀ q : Req, q.Valid nb → ∀ x ∈ parts q, '_' ∉ x := by
    intro q hq x hx
    simp only [parts, List.mem_append, List.mem_cons, List.not_mem_nil, or_false,
      Option.mem_toList] at hx
    rcases hx with (hx | rfl | rfl) | hx
    exacts [hq.region x hx, hq.tmin, hq.tmax, hq.dtype x hx]
  rw [savedName_eq r (n r h), savedName_eq r' (n r' h')] at e
  have e1 := List.append_cancel_right (List.append_cancel_left e)
  have e2 := joinUnder_inj _ _ (by simp [parts]) (by simp [parts]) (no r h) (no r' h') e1
  simp only [parts, List.append_assoc] at e2
  obtain ⟨e3, e4⟩ := List.append_inj e2 (h.length.trans h'.length.symm)
  obtain ⟨g, a, b, d⟩ := r
  obtain ⟨g', a', b', d'⟩ := r'
  simp only [List.cons_append, List.nil_append, List.cons.injEq] at e3 e4
  obtain ⟨rfl, rfl, e5⟩ := e4
  subst e3
  rcases d with _ | d <;> rcases d' with _ | d' <;> simp_all

open Classical in
/-- A file is in the directory only after the request which it answers. -/
def Answers {S : Type*} (compute : Req → S) (nb : ℕ) (dir : Saved S) (past : List Call) : Prop :=
  ∀ r, r.Valid nb → dir (savedName r) =
    if ∃ c ∈ past, c.req = r ∧ ∀ q, c ≠ .load q then some (compute r) else none

open Classical in
theorem call_spec {S : Type*} (compute : Req → S) (nb : ℕ) (hnb : 0 < nb) (dir : Saved S)
    (past : List Call) (h : Answers compute nb dir past) (c : Call) (hc : c.req.Valid nb) :
    (call compute dir c).1 = (if (∃ r, c = .load r) ∧ ¬ ∃ c' ∈ past, c'.req = c.req ∧
        ∀ q, c' ≠ .load q then none else some (compute c.req)) ∧
      Answers compute nb (call compute dir c).2 (past ++ [c]) := by
  have hs : ∀ r, r.Valid nb → ∀ c : Call, c.req = r → (∀ q, c ≠ .load q) → Answers compute nb
      (Function.update dir (savedName r) (some (compute r))) (past ++ [c]) := by
    intro r hr c e hl q hq
    by_cases eq : q = r
    · subst eq
      rw [Function.update_self, if_pos ⟨c, by simp, e, hl⟩]
    · rw [Function.update_of_ne fun en => eq (C62_temporal_file_names nb hnb _ _ hq hr en), h q hq]
      congr 1
      simp only [eq_iff_iff, List.mem_append, List.mem_singleton]
      constructor
      · rintro ⟨c', hm, h'⟩; exact ⟨c', .inl hm, h'⟩
      · rintro ⟨c', hm | rfl, h'⟩
        · exact ⟨c', hm, h'⟩
        · exact absurd (h'.1.symm.trans e) eq
  have hk : ∀ c : Call, ((∃ q, c = .load q) ∨ ∃ c' ∈ past, c'.req = c.req ∧ ∀ q, c' ≠ .load q) →
      Answers compute nb dir (past ++ [c]) := by
    intro c hq r hr
    rw [h r hr]
    congr 1
    simp only [eq_iff_iff, List.mem_append, List.mem_singleton]
    constructor
    · rintro ⟨c', hm, h'⟩; exact ⟨c', .inl hm, h'⟩
    · rintro ⟨c', hm | rfl, h'⟩
      · exact ⟨c', hm, h'⟩
      · rcases hq with ⟨q, rfl⟩ | ⟨c'', hm, e⟩
        · exact absurd rfl (h'.2 q)
        · exact ⟨c'', hm, e.1.trans h'.1, e.2⟩
  rcases c with r | r | r
  · have hr : r.Valid nb := hc
    have hd := h r hr
    by_cases hp : ∃ c ∈ past, c.req = r ∧ ∀ q, c ≠ .load q
    · rw [if_pos hp] at hd
      simp only [call, hd, loadSpectra]
      exact ⟨by simp [Call.req], hk _ (.inr hp)⟩
    · rw [if_neg hp] at hd
      simp only [call, hd, saveSpectra]
      exact ⟨by simp [Call.req], hs r hr _ rfl (by simp)⟩
  · have hr : r.Valid nb := hc
    simp only [call, saveSpectra]
    exact ⟨by simp [Call.req], hs r hr _ rfl (by simp)⟩
  · have hr : r.Valid nb := hc
    simp only [call, loadSpectra]
    refine ⟨?_, hk _ (.inl ⟨r, rfl⟩)⟩
    rw [h r hr]
    by_cases hp : ∃ c ∈ past, c.req = r ∧ ∀ q, c ≠ .load q
    · rw [if_pos hp, if_neg fun hh => hh.2 hp]; rfl
    · rw [if_neg hp, if_pos ⟨⟨r, rfl⟩, hp⟩]

open Classical in
theorem calls_spec {S : Type*} (compute : Req → S) (nb : ℕ) (hnb : 0 < nb) (cs : List Call) :
    ∀ (dir : Saved S) (past : List Call), Answers compute nb dir past →
      (∀ c ∈ cs, c.req.Valid nb) → ∀ (i : ℕ) (c : Call), cs[i]? = some c →
      (calls compute dir cs)[i]? = some (if (∃ r, c = .load r) ∧ ¬ ∃ c' ∈ past ++ cs.take i,
        c'.req = c.req ∧ ∀ q, c' ≠ .load q then none else some (compute c.req)) := by
  induction cs with
  | nil => intro _ _ _ _ i c h; simp at h
  | cons c cs ih =>
    intro dir past h hv i c' hi
    obtain ⟨h1, h2⟩ := call_spec compute nb hnb dir past h c (hv c (by simp))
    cases i with
    | zero =>
      simp only [List.getElem?_cons_zero, Option.some.injEq] at hi
      subst hi
      simp only [calls, List.getElem?_cons_zero, List.take_zero, List.append_nil, h1]
    | succ i =>
      simp only [List.getElem?_cons_succ] at hi
      have := ih _ _ h2 (fun c hc => hv c (by simp [hc])) i c' hi
      rw [List.append_assoc, List.singleton_append] at this
      rw [calls, List.getElem?_cons_succ, List.take_succ_cons]
      exact this

open Classical in
/-- **C62**: for every sequence of calls of `plot_spectra`, `save_spectra` and `load_spectra` with
any regions, times and types, starting without saved file, each call draws or returns the spectra
of its own request; only `load_spectra` can fail, exactly when no earlier call has saved its
request. -/
theorem C62_temporal_requests {S : Type*} (compute : Req → S) (nb : ℕ) (hnb : 0 < nb)
    (cs : List Call) (hv : ∀ c ∈ cs, c.req.Valid nb) (i : ℕ) (c : Call) (hi : cs[i]? = some c) :
    (calls compute (fun _ => none) cs)[i]? =
      some (if (∃ r, c = .load r) ∧ ¬ ∃ c' ∈ cs.take i, c'.req = c.req ∧ ∀ q, c' ≠ .load q
        then none else some (compute c.req)) := by
  have := calls_spec compute nb hnb cs (fun _ => none) [] (by intro r _; simp) hv i c hi
  simpa using this

/-- Two requests which differ by the type only, for a box of two dimensions. -/
def exReq (d : Option Txt) : Req := ⟨[['0'], ['8'], ['0'], ['1', '.', '5']], ['0'], ['2', '0'], d⟩

theorem exReq_valid : (exReq (some "float32".toList)).Valid 4 ∧ (exReq none).Valid 4 := by
  constructor <;>
  exact ⟨by decide, by decide, by decide, by decide, by simp [exReq]⟩

example : (calls (fun r => r.dtype) (fun _ => none)
    [.load (exReq none), .plot (exReq (some "float32".toList)), .plot (exReq none),
      .load (exReq none)])[3]? = some (some none) := by
  have v := exReq_valid
  rw [C62_temporal_requests _ 4 (by norm_num) _ (by
    intro c hc
    simp only [List.mem_cons, List.not_mem_nil, or_false] at hc
    rcases hc with rfl | rfl | rfl | rfl
    exacts [v.2, v.1, v.2, v.2]) 3 (.load (exReq none)) rfl]
  rw [if_neg]
  · rfl
  · rintro ⟨_, h⟩
    exact h ⟨.plot (exReq none), by simp, rfl, by simp⟩

/-- **C62**: without stratification, the figure shows the spectrum of the key versus the
frequency, and an unknown key is an error. -/
theorem C62_tplot_key (Lx Lv : ℝ) (s : TSpectra) (key : String) :
    (∀ E, s.get key = some E → ∃ fig, plotT none Lx Lv s key = some fig ∧
      fig.curves = [(s.omegas, E)]) ∧
    (s.get key = none → plotT none Lx Lv s key = none) := by
  constructor
  · intro E h
    exact ⟨_, by simp only [plotT, h, Option.map_some]; rfl, rfl⟩
  · intro h
    simp [plotT, h]

/-- **C62**: with a stratification, the figure shows the kinetic and the potential energy spectra
versus `ω / N`; the marks are at the frequencies of the internal waves with 1 to 10 wavelengths in
`Lx` and 1 (2) in the height; and the line of slope −2 meets the kinetic energy spectrum at the
frequency nearest to `N` if this one is `N`. -/
theorem C62_tplot_strat (N Lx Lv : ℝ) (hN : 0 < N) (hx : 0 < Lx) (hv : 0 < Lv) (s : TSpectra)
    (key : String) (EK EA : List ℝ) (hK : s.get "K" = some EK) (hA : s.get "A" = some EA)
    (hn : s.omegas ≠ []) (hl : EK.length = s.omegas.length) :
    ∃ fig, plotT (some N) Lx Lv s key = some fig ∧
      fig.curves = [(s.omegas.map (· / N), EK), (s.omegas.map (· / N), EA)] ∧
      (∀ nx < 10, fig.marks1[nx]? = some (waveFreq N (2 * Real.pi * (nx + 1 : ℕ) / Lx)
        (2 * Real.pi * (1 : ℕ) / Lv) / N)) ∧
      (∀ nx < 10, fig.marks2[nx]? = some (waveFreq N (2 * Real.pi * (nx + 1 : ℕ) / Lx)
        (2 * Real.pi * (2 : ℕ) / Lv) / N)) ∧
      ∃ (i : ℕ) (w E : ℝ), s.omegas[i]? = some w ∧ EK[i]? = some E ∧
        (∀ w' ∈ s.omegas, |w - N| ≤ |w' - N|) ∧ (w = N → fig.slope (w / N) = E) := by
  have hne : (s.omegas.map fun w => w / N) ≠ [] := by simpa using hn
  obtain ⟨y, hy, hmin⟩ := nearestIdx_spec _ 1 hne
  generalize hi : nearestIdx (s.omegas.map fun w => w / N) 1 = i at hy
  rw [List.getElem?_map] at hy
  obtain ⟨w, hw, rfl⟩ := Option.map_eq_some_iff.1 hy
  have hlt : i < EK.length := hl ▸ (List.getElem?_eq_some_iff.1 hw).1
  have hE : EK[i]? = some EK[i] := List.getElem?_eq_getElem hlt
  have hm : ∀ nz : ℕ, ∀ nx < 10, ((List.range' 1 10).map fun nx => resonant Lx Lv nx nz)[nx]?
      = some (waveFreq N (2 * Real.pi * (nx + 1 : ℕ) / Lx) (2 * Real.pi * nz / Lv) / N) := by
    intro nz nx h
    rw [List.getElem?_map, List.getElem?_range' h, Option.map_some, one_mul, add_comm 1 nx,
      C62_resonant N Lx Lv hN hx hv (nx + 1) nz (by omega)]
  refine ⟨_, by simp only [plotT, hK, hA, hi, hE, bind, Option.bind, pure]; rfl, rfl, hm 1, hm 2,
    i, w, EK[i], hw, hE, ?_, ?_⟩
  · intro w' hw'
    have h1 := hmin (w' / N) (List.mem_map.2 ⟨w', hw', rfl⟩)
    have e : ∀ x : ℝ, |x / N - 1| = |x - N| / N := by
      intro x
      rw [← abs_of_pos hN, ← abs_div, abs_of_pos hN]
      congr 1
      field_simp
    rw [e, e] at h1
    exact (div_le_div_iff_of_pos_right hN).1 h1
  · rintro rfl
    simp [div_self hN.ne']

/-- A file of spectra of a stratified simulation. -/
def exSpectra : TSpectra := ⟨[0, 1, 2, 3], [("K", [5, 4, 3, 1]), ("A", [4, 4, 2, 1])]⟩

example : ∃ fig, plotT (some 2) 6 3 exSpectra "K" = some fig ∧ fig.curves.length = 2 := by
  obtain ⟨fig, h, hc, _⟩ := C62_tplot_strat 2 6 3 (by norm_num) (by norm_num) (by norm_num)
    exSpectra "K" [5, 4, 3, 1] [4, 4, 2, 1] (by simp [exSpectra, TSpectra.get])
    (by simp [exSpectra, TSpectra.get]) (by simp [exSpectra]) (by simp [exSpectra])
  exact ⟨fig, h, by rw [hc]; rfl⟩

/-- **C62 (violated)**: with a stratification, the argument `key` of `plot_spectra` has no
effect: every key, even one without spectrum, gives the same figure. -/
theorem C62_tplot_key_violated (N Lx Lv : ℝ) (s : TSpectra) (key key' : String) :
    plotT (some N) Lx Lv s key = plotT (some N) Lx Lv s key' := rfl

/-- **C62 (violated)**: in particular, a key without spectrum, which is an error without
stratification, is accepted with a stratification. -/
theorem C62_tplot_unknown_key_violated :
    ∃ (s : TSpectra) (key : String), s.get key = none ∧ plotT none 6 3 s key = none ∧
      plotT (some 2) 6 3 s key ≠ none := by
  refine ⟨exSpectra, "b", by simp [exSpectra, TSpectra.get], by simp [plotT, exSpectra, TSpectra.get],
    ?_⟩
  obtain ⟨fig, h, _⟩ := C62_tplot_strat 2 6 3 (by norm_num) (by norm_num) (by norm_num)
    exSpectra "b" [5, 4, 3, 1] [4, 4, 2, 1] (by simp [exSpectra, TSpectra.get])
    (by simp [exSpectra, TSpectra.get]) (by simp [exSpectra]) (by simp [exSpectra])
  rw [h]
  simp

end Verif.SpatioTemporal
