import Verif.Lemmas.Wrappers
import Verif.Lemmas.Smooth
import Verif.Lemmas.Ellipse
import Verif.Props.C15
import Mathlib.Analysis.SpecialFunctions.ExpDeriv

set_option autoImplicit false

/-!
# C16: amplitude wrappers
-/

open Filter Topology

namespace Verif
open Wrap

/-- Forces, second derivatives and density of an amplitude wrapper around a consistent potential are
consistent at every time, for every time factor and both amplitudes. -/
theorem C16_consistent {P : Pot} {D : ℝ → ℝ → ℝ → Prop} (h : Consistent P D) (amp ampw : ℝ)
    (A : ℝ → ℝ) : Consistent ((modulate A (P.scale ampw)).scale amp) D :=
  Consistent.scale amp
    ⟨fun _ _ _ _ k => ((h.grad _ _ _ _ k).scale ampw).modulate A,
      fun _ _ _ _ k => ((h.hess _ _ _ _ k).scale ampw).modulate A,
      fun _ _ _ _ k k' => ((h.poisson _ _ _ _ k k').scale ampw).modulate A⟩

/-- The same at a single point and time. -/
theorem C16_pointwise {P : Pot} {R z φ t : ℝ} (A : ℝ → ℝ) (amp : ℝ) (hg : GradAt P R z φ t)
    (hh : HessAt P R z φ t) (hp : PoissonAt P R z φ t) :
    GradAt ((modulate A P).scale amp) R z φ t ∧ HessAt ((modulate A P).scale amp) R z φ t ∧
    PoissonAt ((modulate A P).scale amp) R z φ t :=
  ⟨(hg.modulate A).scale amp, (hh.modulate A).scale amp, (hp.modulate A).scale amp⟩

/-- All methods of the wrapper carry one factor: the ratio to the wrapped potential is the same
number for the value, the forces, the second derivatives and the density at every point. -/
theorem C16_same_factor (P : Pot) (A : ℝ → ℝ) (amp t : ℝ) : ∃ c : ℝ, ∀ R z φ,
    ((modulate A P).scale amp).val R z φ t = c * P.val R z φ t ∧
    ((modulate A P).scale amp).Rforce R z φ t = c * P.Rforce R z φ t ∧
    ((modulate A P).scale amp).zforce R z φ t = c * P.zforce R z φ t ∧
    ((modulate A P).scale amp).phitorque R z φ t = c * P.phitorque R z φ t ∧
    ((modulate A P).scale amp).R2deriv R z φ t = c * P.R2deriv R z φ t ∧
    ((modulate A P).scale amp).z2deriv R z φ t = c * P.z2deriv R z φ t ∧
    ((modulate A P).scale amp).Rzderiv R z φ t = c * P.Rzderiv R z φ t ∧
    ((modulate A P).scale amp).phi2deriv R z φ t = c * P.phi2deriv R z φ t ∧
    ((modulate A P).scale amp).Rphideriv R z φ t = c * P.Rphideriv R z φ t ∧
    ((modulate A P).scale amp).phizderiv R z φ t = c * P.phizderiv R z φ t ∧
    ((modulate A P).scale amp).dens R z φ t = c * P.dens R z φ t := by
  refine ⟨amp * A t, fun R z φ => ?_⟩
  simp only [Pot.scale, modulate]
  refine ⟨?_, ?_, ?_, ?_, ?_, ?_, ?_, ?_, ?_, ?_, ?_⟩ <;> ring

/-- Along an orbit in a static potential with a time-dependent amplitude the energy changes at the
rate of change of the amplitude times the wrapped potential; in particular it is conserved while the
amplitude is constant. -/
theorem C16_energy_rate {P : Pot} (hst : Static P) {A A' : ℝ → ℝ} {y : ℝ → Fin 6 → ℝ} {s : ℝ}
    (hA : HasDerivAt A (A' s) s) (hy : HasDerivAt y (EOM.full (modulate A P).force s (y s)) s)
    (hR : y s 0 ≠ 0) (hg : GradAt P (y s 0) (y s 4) (y s 2) s)
    (hd : DiffAt P (y s 0) (y s 4) (y s 2) s) :
    HasDerivAt (fun u => (y u 1 ^ 2 + (y u 0 * y u 3) ^ 2 + y u 5 ^ 2) / 2
      + (modulate A P).val (y u 0) (y u 4) (y u 2) u) (A' s * P.val (y s 0) (y s 4) (y s 2) s) s := by
  have h := hasDerivAt_pi.1 hy
  have hval := GradAt.curve hg hd (h 0) (h 4) (h 2)
  have hkin := ((((h 1).pow 2).add (((h 0).mul (h 3)).pow 2)).add ((h 5).pow 2)).div_const 2
  have hsum := hkin.add (hA.mul hval)
  have heq : (fun u => (y u 1 ^ 2 + (y u 0 * y u 3) ^ 2 + y u 5 ^ 2) / 2
      + (modulate A P).val (y u 0) (y u 4) (y u 2) u) =
      fun u => (y u 1 ^ 2 + (y u 0 * y u 3) ^ 2 + y u 5 ^ 2) / 2
        + A u * P.val (y u 0) (y u 4) (y u 2) s := by
    funext u
    simp only [modulate]
    rw [hst _ _ _ u s]
  rw [heq]
  refine hsum.congr_deriv ?_
  simp [EOM.full, Pot.force, modulate]
  field_simp
  ring

/-- The Gaussian factor: at most 1, equal to 1 at `t₀`, symmetric about it, `exp(-1/2)` one `sigma`
away, positive always and smaller at times further from `t₀`. -/
theorem C16_gaussian {t₀ sigma : ℝ} (hs : sigma ≠ 0) :
    gaussSmooth t₀ sigma t₀ = 1 ∧ gaussSmooth t₀ sigma (t₀ + sigma) = Real.exp (-1 / 2) ∧
    (∀ d, gaussSmooth t₀ sigma (t₀ + d) = gaussSmooth t₀ sigma (t₀ - d)) ∧
    (∀ t, 0 < gaussSmooth t₀ sigma t ∧ gaussSmooth t₀ sigma t ≤ 1) ∧
    ∀ s t, |s - t₀| < |t - t₀| → gaussSmooth t₀ sigma t < gaussSmooth t₀ sigma s := by
  have hp : 0 < sigma ^ 2 := by positivity
  refine ⟨by simp [gaussSmooth], ?_, fun d => ?_, fun t => ⟨Real.exp_pos _, ?_⟩, fun s t h => ?_⟩
  · unfold gaussSmooth
    congr 1
    field_simp
    ring
  · simp [gaussSmooth]
  · unfold gaussSmooth
    rw [Real.exp_le_one_iff]
    apply div_nonpos_of_nonpos_of_nonneg _ hp.le
    nlinarith [sq_nonneg (t - t₀)]
  · unfold gaussSmooth
    rw [Real.exp_lt_exp]
    apply div_lt_div_of_pos_right _ hp
    have := sq_lt_sq.2 h
    linarith

/-- What the C functions of the wrapped potentials give when they agree with Python. -/
def CMatches (c : CForces) (P : Pot) : Prop := ∀ R z φ t,
  c.Rforce R z φ t = P.Rforce R z φ t ∧ c.zforce R z φ t = P.zforce R z φ t ∧
  c.phitorque R z φ t = P.phitorque R z φ t ∧ c.R2deriv R z φ t = P.R2deriv R z φ t ∧
  c.z2deriv R z φ t = P.z2deriv R z φ t ∧ c.Rzderiv R z φ t = P.Rzderiv R z φ t ∧
  c.phi2deriv R z φ t = P.phi2deriv R z φ t ∧ c.Rphideriv R z φ t = P.Rphideriv R z φ t ∧
  c.zphideriv R z φ t = P.phizderiv R z φ t

/-- If the C functions of the wrapped potential compute the Python methods, so do those of the
amplitude wrappers. -/
theorem C51_modulate {c : CForces} {P : Pot} (h : CMatches c P) (amp : ℝ) (A : ℝ → ℝ) :
    CMatches (cModulate amp A c) ((modulate A P).scale amp) := by
  intro R z φ t
  obtain ⟨h1, h2, h3, h4, h5, h6, h7, h8, h9⟩ := h R z φ t
  simp only [cModulate, Pot.scale, modulate, h1, h2, h3, h4, h5, h6, h7, h8, h9]
  refine ⟨?_, ?_, ?_, ?_, ?_, ?_, ?_, ?_, ?_⟩ <;> ring

/-- The same for the rotating wrapper. -/
theorem C51_solidBody {c : CForces} {P : Pot} (h : CMatches c P) (amp omega pa : ℝ) :
    CMatches (cSolidBody amp omega pa c) ((solidBody omega pa P).scale amp) := by
  intro R z φ t
  obtain ⟨h1, h2, h3, h4, h5, h6, h7, h8, h9⟩ := h R z (φ - omega * t - pa) t
  simp only [cSolidBody, Pot.scale, solidBody, h1, h2, h3, h4, h5, h6, h7, h8, h9, and_self]

/-- The same for the corotating wrapper. -/
theorem C51_corotating {c : CForces} {P : Pot} (h : CMatches c P) (amp vpo beta pa t₀ : ℝ) :
    CMatches (cCorotating amp vpo beta pa t₀ c) ((corotating vpo beta t₀ pa P).scale amp) := by
  intro R z φ t
  obtain ⟨h1, h2, h3, h4, h5, h6, h7, h8, h9⟩ := h R z (φ - vpo * R ^ (beta - 1) * (t - t₀) - pa) t
  simp only [cCorotating, Pot.scale, corotating, corotPhi, h1, h2, h3, h4, h5, h6, h7, h8, h9]
  refine ⟨?_, ?_, ?_, ?_, ?_, ?_, ?_, ?_, ?_⟩ <;> first | trivial | ring

example : Consistent ((modulate (dehnenSmooth (-4) (-2) true) ((Plummer.pot 1).scale 3)).scale 2)
    (fun R z _ => 0 < R ^ 2 + z ^ 2 + 1 ^ 2) :=
  C16_consistent (Plummer.consistent 1) 2 3 _

/-- A potential growing to full strength: the ellipse orbit solves the equations once it is grown. -/
example (s : ℝ) (hs : -2 < s) : HasDerivAt (fun u => (Ellipse.y u 1 ^ 2 + (Ellipse.y u 0 * Ellipse.y u 3) ^ 2
      + Ellipse.y u 5 ^ 2) / 2 + (modulate (dehnenSmooth (-4) (-2) true) Ellipse.P).val (Ellipse.y u 0)
        (Ellipse.y u 4) (Ellipse.y u 2) u) 0 s := by
  have e : ∀ᶠ u in 𝓝 s, dehnenSmooth (-4) (-2) true u = 1 := by
    filter_upwards [lt_mem_nhds hs] with u hu
    exact (C15_after (by norm_num) hu.le).1
  have hA : HasDerivAt (dehnenSmooth (-4) (-2) true) ((fun _ => 0 : ℝ → ℝ) s) s :=
    (hasDerivAt_const s (1 : ℝ)).congr_of_eventuallyEq e
  have hy : HasDerivAt Ellipse.y (EOM.full (modulate (dehnenSmooth (-4) (-2) true) Ellipse.P).force s
      (Ellipse.y s)) s := by
    have := Ellipse.solves s trivial
    simpa [EOM.full, Pot.force, modulate, (C15_after (by norm_num : (-4 : ℝ) < -2) hs.le).1] using this
  refine (C16_energy_rate (A' := fun _ => 0) Ellipse.static hA hy (by simp [Ellipse.y]) (Ellipse.smoothOn.grad _ _ _ _ ?_)
    (Ellipse.smoothOn.diff _ _ _ _ ?_)).congr_deriv (by simp)
  · exact Ellipse.y_mem s
  · exact Ellipse.y_mem s

end Verif
