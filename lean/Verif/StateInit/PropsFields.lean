import Verif.StateInit.ModelFields
import Verif.StateInit.Lemmas
import Verif.Strat.Props
import Verif.Sw1l.Props
import Verif.Vectors.Props

/-! # C11: the state obtained from a given field has this field -/

set_option linter.unusedSectionVars false

namespace Verif.StateInit

open Verif.Forcing Verif.Energy Verif.Sw1l Verif.Strat

noncomputable section

variable {V : Type}

/-! ### ns2d -/

/-- **C11** (ns2d) The vorticity given, or the curl of the velocity given (the other component being zero),
restricted to the kept modes. -/
theorem C11_ns2d_fields (S : Finset (Fin 2 → ℤ)) (δ : Fin 2 → ℝ) (N : ℝ) (s : Fields (Fld (Fin 2)))
    (a : Fld (Fin 2)) (k : Fin 2 → ℤ) :
    let o := ops2d S δ N
    (ns2dInitSpect o s [("rot_fft", a)]).1.spect "rot_fft" k = (if k ∈ S then a k else 0) ∧
    (ns2dInitSpect o s [("ux_fft", a)]).1.spect "rot_fft" k
      = (if k ∈ S then -(Complex.I * (δ 1 * k 1) * a k) else 0) ∧
    (ns2dInitSpect o s [("uy_fft", a)]).1.spect "rot_fft" k
      = (if k ∈ S then Complex.I * (δ 0 * k 0) * a k else 0) := by
  intro o
  refine ⟨?_, ?_, ?_⟩
  · simp [ns2dInitSpect, ns2dFromRot, ns2dPhysFromSpect, Fields.setPhys, Fields.setSpect, set, o, ops2d,
      keep]
  · by_cases hS : k ∈ S <;>
      simp [ns2dInitSpect, ns2dFromUx, ns2dFromRot, ns2dPhysFromSpect, Fields.setPhys, Fields.setSpect,
      set, o, ops2d, keep, rotFromVec, hS, mul_assoc]
  · by_cases hS : k ∈ S <;>
      simp [ns2dInitSpect, ns2dFromUy, ns2dFromRot, ns2dPhysFromSpect, Fields.setPhys, Fields.setSpect,
      set, o, ops2d, keep, rotFromVec, hS, mul_assoc]

/-! ### ns2d.bouss, ns2d.strat -/

/-- **C10** (ns2d.bouss, ns2d.strat) after an initialisation from the vorticity and the buoyancy the physical
arrays are those of the spectral ones, and the spectral ones are the given ones, truncated. -/
theorem C10_rotb_consistent (o : Ops V) (s : Fields V) (rot b : V) :
    (boussInitSpect o s [("rot_fft", rot), ("b_fft", b)] = stratInitSpect o s [("rot_fft", rot), ("b_fft", b)]) ∧
    (boussInitSpect o s [("b_fft", b), ("rot_fft", rot)] = stratInitSpect o s [("rot_fft", rot), ("b_fft", b)]) ∧
    (stratInitSpect o s [("b_fft", b), ("rot_fft", rot)] = stratInitSpect o s [("rot_fft", rot), ("b_fft", b)]) ∧
    let s' := (stratInitSpect o s [("rot_fft", rot), ("b_fft", b)]).1
    (stratInitSpect o s [("rot_fft", rot), ("b_fft", b)]).2 = none ∧
    s'.spect "rot_fft" = o.un "dealiasing" rot ∧ s'.spect "b_fft" = o.un "dealiasing" b ∧
    s'.phys "b" = o.un "ifft" (s'.spect "b_fft") ∧
    s'.phys "rot" = o.un "ifft" (s'.spect "rot_fft") ∧
    s'.phys "ux" = o.un "ifft" (o.un "vecfft_from_rotfft.ux" (s'.spect "rot_fft")) ∧
    s'.phys "uy" = o.un "ifft" (o.un "vecfft_from_rotfft.uy" (s'.spect "rot_fft")) := by
  simp [boussInitSpect, stratInitSpect, stratInitMany, lookup, fromRotb, rotbPhysFromSpect,
    ns2dPhysFromSpect, Fields.setPhys, Fields.setSpect, set]

/-- **C10** (ns2d.strat) the same for the initialisations from one field. -/
theorem C10_strat_consistent (o : Ops V) (s : Fields V) (k : String) (v : V)
    (hk : k ∈ ["rot_fft", "ap_fft", "am_fft", "ux_fft", "uy_fft"]) :
    let s' := (stratInitSpect o s [(k, v)]).1
    (stratInitSpect o s [(k, v)]).2 = none ∧
    s'.phys "b" = o.un "ifft" (s'.spect "b_fft") ∧
    s'.phys "rot" = o.un "ifft" (s'.spect "rot_fft") ∧
    s'.phys "ux" = o.un "ifft" (o.un "vecfft_from_rotfft.ux" (s'.spect "rot_fft")) ∧
    s'.phys "uy" = o.un "ifft" (o.un "vecfft_from_rotfft.uy" (s'.spect "rot_fft")) := by
  simp only [List.mem_cons, List.not_mem_nil, or_false] at hk
  rcases hk with rfl | rfl | rfl | rfl | rfl <;>
    simp [stratInitSpect, fromRotb, rotbPhysFromSpect, ns2dPhysFromSpect, Fields.setPhys,
      Fields.setSpect, set]

/-- **C11** (ns2d.strat) the vorticity given or the curl of the velocity given, with no buoyancy; a state
initialised from one linear mode has this mode (on the kept modes with `kx ≠ 0`) and not the other one. -/
theorem C11_strat_fields (S : Finset (Fin 2 → ℤ)) {δ : Fin 2 → ℝ} (hδ : δ 0 ≠ 0) {N : ℝ} (hN : N ≠ 0)
    (s : Fields (Fld (Fin 2))) (a : Fld (Fin 2)) (k : Fin 2 → ℤ) :
    let o := ops2d S δ N
    let st := fun key => (stratInitSpect o s [(key, a)]).1.spect
    (st "rot_fft" "rot_fft" k = (if k ∈ S then a k else 0) ∧ st "rot_fft" "b_fft" k = 0) ∧
    (st "ux_fft" "rot_fft" k = (if k ∈ S then -(Complex.I * (δ 1 * k 1) * a k) else 0) ∧
      st "ux_fft" "b_fft" k = 0) ∧
    (st "uy_fft" "rot_fft" k = (if k ∈ S then Complex.I * (δ 0 * k 0) * a k else 0) ∧
      st "uy_fft" "b_fft" k = 0) ∧
    (k ∈ S → k 0 ≠ 0 →
      apFft δ N (st "ap_fft" "rot_fft") (st "ap_fft" "b_fft") k = a k ∧
      amFft δ N (st "am_fft" "rot_fft") (st "am_fft" "b_fft") k = a k) ∧
    amFft δ N (st "ap_fft" "rot_fft") (st "ap_fft" "b_fft") k = 0 ∧
    apFft δ N (st "am_fft" "rot_fft") (st "am_fft" "b_fft") k = 0 := by
  intro o st
  have e1 : st "ap_fft" "rot_fft" = (initFromAp S δ N a).1 := by
    funext j
    simp [st, stratInitSpect, fromRotb, rotbPhysFromSpect, ns2dPhysFromSpect, Fields.setPhys,
      Fields.setSpect, set, o, ops2d, keep, initFromAp]
  have e2 : st "ap_fft" "b_fft" = (initFromAp S δ N a).2 := by
    funext j
    simp [st, stratInitSpect, fromRotb, rotbPhysFromSpect, ns2dPhysFromSpect, Fields.setPhys,
      Fields.setSpect, set, o, ops2d, keep, initFromAp]
  have e3 : st "am_fft" "rot_fft" = (initFromAm S δ N a).1 := by
    funext j
    simp [st, stratInitSpect, fromRotb, rotbPhysFromSpect, ns2dPhysFromSpect, Fields.setPhys,
      Fields.setSpect, set, o, ops2d, keep, initFromAm]
  have e4 : st "am_fft" "b_fft" = (initFromAm S δ N a).2 := by
    funext j
    simp [st, stratInitSpect, fromRotb, rotbPhysFromSpect, ns2dPhysFromSpect, Fields.setPhys,
      Fields.setSpect, set, o, ops2d, keep, initFromAm]
  have hc := C40_init (S := S) hδ hN a k
  simp only [] at hc
  rw [e1, e2, e3, e4]
  refine ⟨⟨?_, ?_⟩, ⟨?_, ?_⟩, ⟨?_, ?_⟩, hc.1, hc.2.1, hc.2.2.1⟩
  · simp [st, stratInitSpect, fromRotb, rotbPhysFromSpect, ns2dPhysFromSpect, Fields.setPhys,
      Fields.setSpect, set, o, ops2d, keep]
  · simp [st, stratInitSpect, fromRotb, rotbPhysFromSpect, ns2dPhysFromSpect, Fields.setPhys,
      Fields.setSpect, set, o, ops2d, keep]
  · by_cases hS : k ∈ S <;>
      simp [st, stratInitSpect, fromRotb, rotbPhysFromSpect, ns2dPhysFromSpect, Fields.setPhys,
      Fields.setSpect, set, o, ops2d, keep, rotFromVec, hS, mul_assoc]
  · simp [st, stratInitSpect, fromRotb, rotbPhysFromSpect, ns2dPhysFromSpect, Fields.setPhys,
      Fields.setSpect, set, o, ops2d, keep]
  · by_cases hS : k ∈ S <;>
      simp [st, stratInitSpect, fromRotb, rotbPhysFromSpect, ns2dPhysFromSpect, Fields.setPhys,
      Fields.setSpect, set, o, ops2d, keep, rotFromVec, hS, mul_assoc]
  · simp [st, stratInitSpect, fromRotb, rotbPhysFromSpect, ns2dPhysFromSpect, Fields.setPhys,
      Fields.setSpect, set, o, ops2d, keep]

/-! ### ns3d -/

/-- The velocity of a state at one mode. -/
def velocity {ι : Type} (s : Fields (ι → ℂ)) (k : ι) : Vectors.V3 :=
  ⟨s.spect "vx_fft" k, s.spect "vy_fft" k, s.spect "vz_fft" k⟩

/-- **C11** (ns3d, ns3d.strat, ns3d.bouss) for every list of variables of the state that contains the three
components: the state obtained from a poloidal (toroidal) scalar has this scalar and no toroidal (poloidal)
one, the one obtained from a vertical vorticity (horizontal divergence) has this one, no horizontal divergence
(vertical vorticity) and no vertical velocity, off the modes without horizontal wavenumber; the three states
without horizontal divergence are divergence free; and the other variables of the state are zero. -/
theorem C11_ns3d_fields {ι : Type} (K : ι → Vectors.K3) (keys : List String) (hx : "vx_fft" ∈ keys)
    (hy : "vy_fft" ∈ keys) (hz : "vz_fft" ∈ keys) (s : Fields (ι → ℂ)) (a : ι → ℂ) (k : ι)
    (hk : ¬ Vectors.Shear (K k)) :
    let st := fun key => (ns3dInitSpect (ops3d K) keys s [(key, a)]).1
    (∀ key ∈ ["vp_fft", "vt_fft", "rotz_fft", "divh_fft"],
      (ns3dInitSpect (ops3d K) keys s [(key, a)]).2 = none ∧
      ∀ name, name ∉ ["vx_fft", "vy_fft", "vz_fft"] → (st key).spect name = fun _ => 0) ∧
    (Vectors.vpFromVec (K k) (velocity (st "vp_fft") k) = a k ∧
      Vectors.vtFromVec (K k) (velocity (st "vp_fft") k) = 0 ∧
      Vectors.kdot (K k) (velocity (st "vp_fft") k) = 0) ∧
    (Vectors.vtFromVec (K k) (velocity (st "vt_fft") k) = a k ∧
      Vectors.vpFromVec (K k) (velocity (st "vt_fft") k) = 0 ∧
      Vectors.kdot (K k) (velocity (st "vt_fft") k) = 0) ∧
    (Vectors.rotz (K k) (velocity (st "rotz_fft") k).x (velocity (st "rotz_fft") k).y = a k ∧
      (velocity (st "rotz_fft") k).z = 0 ∧ Vectors.kdot (K k) (velocity (st "rotz_fft") k) = 0) ∧
    (Vectors.divh (K k) (velocity (st "divh_fft") k).x (velocity (st "divh_fft") k).y = a k ∧
      (velocity (st "divh_fft") k).z = 0 ∧
      Vectors.rotz (K k) (velocity (st "divh_fft") k).x (velocity (st "divh_fft") k).y = 0) := by
  intro st
  have hI : Complex.I ^ 2 = -1 := Complex.I_sq
  have ep : velocity (st "vp_fft") k = Vectors.vecFromVp (K k) (a k) := by
    simp [velocity, st, ns3dInitSpect, baseInitSpect, spectLoop, hx, hy, hz, Fields.setSpect, set, ops3d]
  have et : velocity (st "vt_fft") k = Vectors.vecFromVt (K k) (a k) := by
    simp [velocity, st, ns3dInitSpect, baseInitSpect, spectLoop, hx, hy, hz, Fields.setSpect, set, ops3d]
  have er : velocity (st "rotz_fft") k = ⟨(Vectors.vxvyFromRotz (K k) (a k)).1,
      (Vectors.vxvyFromRotz (K k) (a k)).2, 0⟩ := by
    simp [velocity, st, ns3dInitSpect, baseInitSpect, spectLoop, hx, hy, Fields.setSpect, set, ops3d]
  have ed : velocity (st "divh_fft") k = ⟨(Vectors.vxvyFromDivh (K k) (a k)).1,
      (Vectors.vxvyFromDivh (K k) (a k)).2, 0⟩ := by
    simp [velocity, st, ns3dInitSpect, baseInitSpect, spectLoop, hx, hy, Fields.setSpect, set, ops3d]
  obtain ⟨s1, s2, -, -⟩ := Vectors.C29_scalar_energy (K k) hk (a k) Vectors.zero
  obtain ⟨κ, h', hκ, hh, e1, e2, e3, e4, ht, hp⟩ := Vectors.anglesC hk
  have hinv : ((1 / Vectors.nozero (Vectors.kh2 (K k)) : ℝ) : ℂ) * (((K k).x : ℂ) ^ 2 + ((K k).y : ℂ) ^ 2) = 1 := by
    rw [Vectors.nozero_of_ne (Vectors.kh2_pos hk).ne']
    have h0 := (Vectors.kh2_pos hk).ne'
    have : ((1 / Vectors.kh2 (K k)) * ((K k).x ^ 2 + (K k).y ^ 2) : ℝ) = 1 := by
      rw [show (K k).x ^ 2 + (K k).y ^ 2 = Vectors.kh2 (K k) from rfl]
      field_simp
    exact_mod_cast this
  refine ⟨?_, ?_, ?_, ?_, ?_⟩
  · intro key hkey
    simp only [List.mem_cons, List.not_mem_nil, or_false] at hkey
    refine ⟨?_, ?_⟩
    · rcases hkey with rfl | rfl | rfl | rfl <;>
        simp [ns3dInitSpect, baseInitSpect, spectLoop, hx, hy, hz]
    · intro name hn
      simp only [List.mem_cons, List.not_mem_nil, or_false, not_or] at hn
      obtain ⟨n1, n2, n3⟩ := hn
      rcases hkey with rfl | rfl | rfl | rfl <;>
        simp [st, ns3dInitSpect, baseInitSpect, spectLoop, hx, hy, hz, Fields.setSpect, set, n1, n2, n3,
          ops3d]
  · rw [ep]
    refine ⟨s1, ?_, ?_⟩
    · simp only [Vectors.vtFromVec, Vectors.vecFromVp]; ring
    · simp only [Vectors.kdot, Vectors.vecFromVp, e1, e3, e4, e2]
      linear_combination (κ * Vectors.sinTheta (K k) * Vectors.cosTheta (K k) * a k) * hp
  · rw [et]
    refine ⟨s2, ?_, ?_⟩
    · simp only [Vectors.vpFromVec, Vectors.vecFromVt]; ring
    · simp only [Vectors.kdot, Vectors.vecFromVt, e3, e4]; ring
  · rw [er]
    refine ⟨?_, rfl, ?_⟩
    · simp only [Vectors.rotz, Vectors.vxvyFromRotz]
      linear_combination (a k) * hinv - (a k * ((1 / Vectors.nozero (Vectors.kh2 (K k)) : ℝ) : ℂ) *
        (((K k).x : ℂ) ^ 2 + ((K k).y : ℂ) ^ 2)) * hI
    · simp only [Vectors.kdot, Vectors.vxvyFromRotz]; ring
  · rw [ed]
    refine ⟨?_, rfl, ?_⟩
    · simp only [Vectors.divh, Vectors.vxvyFromDivh]
      linear_combination (a k) * hinv - (a k * ((1 / Vectors.nozero (Vectors.kh2 (K k)) : ℝ) : ℂ) *
        (((K k).x : ℂ) ^ 2 + ((K k).y : ℂ) ^ 2)) * hI
    · simp only [Vectors.rotz, Vectors.vxvyFromDivh]; ring

/-! ### sw1l -/

/-- The variables of a state of sw1l at one mode. -/
def uEta (s : Fields (Fld (Fin 2))) (k : Mode) : UEta :=
  ⟨s.spect "ux_fft" k, s.spect "uy_fft" k, s.spect "eta_fft" k⟩

/-- **C11** (sw1l) the method for each keyword is the one of the C39 theorems: on the kept non-zero modes, the
state obtained from a potential vorticity has it, no divergence and no ageostrophic part, and the state obtained
from an ageostrophic variable has it, no divergence and no potential vorticity; the state obtained from a surface
displacement is at rest with this displacement. -/
theorem C11_sw1l_fields {p : Par} (h : p.Ok) (S : Finset Mode) (s : Fields (Fld (Fin 2)))
    (a : Fld (Fin 2)) {k : Mode} (hS : k ∈ S) (hk : k ≠ 0) :
    let u := fun key => uEta (sw1lInitSpect (opsSw S p) s [(key, a)]).1 k
    (qOf p k (u "q_fft") = a k ∧ aOf p k (u "q_fft") = 0 ∧
      divOf p k (u "q_fft").ux (u "q_fft").uy = 0) ∧
    (qOf p k (u "a_fft") = 0 ∧ aOf p k (u "a_fft") = a k ∧
      divOf p k (u "a_fft").ux (u "a_fft").uy = 0) ∧
    u "eta_fft" = ⟨0, 0, a k⟩ := by
  intro u
  have n1 : removeUnderscores "q_fft" = "qfft" := by decide
  have n2 : removeUnderscores "a_fft" = "afft" := by decide
  have n3 : removeUnderscores "eta_fft" = "etafft" := by decide
  have e1 : u "q_fft" = initQ p S a k := by
    simp [u, uEta, sw1lInitSpect, n1, sw1lFromUxUyEta, sw1lPhysFromSpect, dealiasAll, Fields.setPhys,
      Fields.setSpect, set, opsSw, keep, initQ, trunc, hS]
  have e2 : u "a_fft" = initA p S a k := by
    simp [u, uEta, sw1lInitSpect, n2, sw1lFromUxUyEta, sw1lPhysFromSpect, dealiasAll, Fields.setPhys,
      Fields.setSpect, set, opsSw, keep, initA, trunc, hS]
  have e3 : u "eta_fft" = ⟨0, 0, a k⟩ := by
    simp [u, uEta, sw1lInitSpect, n3, sw1lFromUxUyEta, sw1lPhysFromSpect, dealiasAll, Fields.setPhys,
      Fields.setSpect, set, opsSw, keep, hS]
  rw [e1, e2]
  obtain ⟨h1, h2⟩ := C39_init_q_a h S a a hS hk
  exact ⟨h1, h2, e3⟩

/-- **C11** (sw1l, partial: not the component `y` of the velocity, see `C11_sw1l_qa_violated`) the state obtained
from a potential vorticity and an ageostrophic variable is the sum of the two states obtained from each of
them. -/
theorem C11_sw1l_qa_partial (p : Par) (S : Finset Mode) (s : Fields (Fld (Fin 2)))
    (q a : Fld (Fin 2)) (k : Mode) :
    let o := opsSw S p
    let u := uEta (sw1lInitSpect o s [("q_fft", q), ("a_fft", a)]).1 k
    let uq := uEta (sw1lInitSpect o s [("q_fft", q)]).1 k
    let ua := uEta (sw1lInitSpect o s [("a_fft", a)]).1 k
    u.ux = uq.ux + ua.ux ∧ u.eta = uq.eta + ua.eta ∧ u.uy = uq.uy + ua.ux := by
  intro o u uq ua
  have n1 : removeUnderscores "q_fft" = "qfft" := by decide
  have n2 : removeUnderscores "a_fft" = "afft" := by decide
  by_cases hS : k ∈ S <;>
    simp [u, uq, ua, uEta, sw1lInitSpect, sw1lInitMany, lookup, n1, n2, sw1lFromQA, sw1lFromUxUyEta,
      sw1lPhysFromSpect, dealiasAll, Fields.setPhys, Fields.setSpect, set, o, opsSw, keep, hS]

/-- **C11** (sw1l, finding) the component `y` is not that of the sum, for every kept mode with `kx + ky ≠ 0`
with an ageostrophic part, when `f ≠ 0`. -/
theorem C11_sw1l_qa_violated {p : Par} (h : p.Ok) (hf : p.f ≠ 0) (S : Finset Mode)
    (s : Fields (Fld (Fin 2))) (q a : Fld (Fin 2)) {k : Mode} (hS : k ∈ S) (hk : k ≠ 0)
    (hxy : p.kx k + p.ky k ≠ 0) (ha : a k ≠ 0) :
    let o := opsSw S p
    (uEta (sw1lInitSpect o s [("q_fft", q), ("a_fft", a)]).1 k).uy ≠
      (uEta (sw1lInitSpect o s [("q_fft", q)]).1 k).uy + (uEta (sw1lInitSpect o s [("a_fft", a)]).1 k).uy := by
  intro o
  have n1 : removeUnderscores "q_fft" = "qfft" := by decide
  have n2 : removeUnderscores "a_fft" = "afft" := by decide
  have hc := C39_init_qa_violated h hf S q a hS hk hxy ha
  simpa [uEta, sw1lInitSpect, sw1lInitMany, lookup, n1, n2, sw1lFromQA, sw1lFromUxUyEta,
    sw1lPhysFromSpect, dealiasAll, Fields.setPhys, Fields.setSpect, set, o, opsSw, keep, hS, initQA,
    initQ, initA, trunc] using hc

/-- non-vacuity of the hypotheses -/
example : (⟨fun _ => 1, 1, 1⟩ : Par).Ok ∧ (⟨fun _ => 1, 1, 1⟩ : Par).kx ![1, 0] +
    (⟨fun _ => 1, 1, 1⟩ : Par).ky ![1, 0] ≠ 0 ∧ ¬ Vectors.Shear ⟨1, 0, 2⟩ := by
  refine ⟨⟨fun _ => one_ne_zero, one_pos⟩, ?_, ?_⟩
  · simp [Par.kx, Par.ky]
  · simp [Vectors.Shear]

end

end Verif.StateInit
