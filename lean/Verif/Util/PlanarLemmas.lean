import Verif.Spec.Planar
import Verif.Util.Deriv
import Mathlib.Topology.Algebra.Order.Field

set_option autoImplicit false

/-!
# Helper lemmas for planar and one-dimensional potentials
-/

open Filter Topology

namespace Verif

private theorem hd_of_ev' {F G : ℝ → ℝ} {d a : ℝ} (h : HasDerivAt G (-d) a)
    (e : ∀ᶠ x in 𝓝 a, F x = -G x) : HasDerivAt F d a := by
  have h2 : HasDerivAt (fun x => -G x) d a := by simpa using hd_neg h
  exact h2.congr_of_eventuallyEq e

/-- Second derivatives as derivatives of minus the force methods. -/
structure PForceHess (P : PPot) (R φ t : ℝ) : Prop where
  RR : HasDerivAt (fun x => P.Rforce x φ t) (-P.R2deriv R φ t) R
  Rp : HasDerivAt (fun x => P.Rforce R x t) (-P.Rphideriv R φ t) φ
  pR : HasDerivAt (fun x => P.phitorque x φ t) (-P.Rphideriv R φ t) R
  pp : HasDerivAt (fun x => P.phitorque R x t) (-P.phi2deriv R φ t) φ

theorem PHessAt.of_force {P : PPot} {R φ t : ℝ} (gR : ∀ᶠ x in 𝓝 R, PGradAt P x φ t)
    (gp : ∀ᶠ x in 𝓝 φ, PGradAt P R x t) (h : PForceHess P R φ t) : PHessAt P R φ t where
  RR := hd_of_ev' h.RR (gR.mono fun _ k => k.dR.deriv)
  Rp := hd_of_ev' h.Rp (gp.mono fun _ k => k.dR.deriv)
  pR := hd_of_ev' h.pR (gR.mono fun _ k => k.dphi.deriv)
  pp := hd_of_ev' h.pp (gp.mono fun _ k => k.dphi.deriv)

theorem LHessAt.of_force {P : LPot} {x t : ℝ} (g : ∀ᶠ y in 𝓝 x, LGradAt P y t)
    (h : HasDerivAt (fun y => P.force y t) (-P.force2deriv x t) x) : LHessAt P x t :=
  hd_of_ev' h (g.mono fun _ k => k.deriv)

theorem PGradAt.scale {P : PPot} {R φ t : ℝ} (amp : ℝ) (h : PGradAt P R φ t) :
    PGradAt (P.scale amp) R φ t :=
  ⟨by simpa [PPot.scale] using h.dR.const_mul amp, by simpa [PPot.scale] using h.dphi.const_mul amp⟩

theorem PHessAt.scale {P : PPot} {R φ t : ℝ} (amp : ℝ) (h : PHessAt P R φ t) :
    PHessAt (P.scale amp) R φ t :=
  ⟨by simpa [PPot.scale] using h.RR.const_mul amp, by simpa [PPot.scale] using h.Rp.const_mul amp,
   by simpa [PPot.scale] using h.pR.const_mul amp, by simpa [PPot.scale] using h.pp.const_mul amp⟩

theorem LGradAt.scale {P : LPot} {x t : ℝ} (amp : ℝ) (h : LGradAt P x t) :
    LGradAt (P.scale amp) x t := by
  simpa [LGradAt, LPot.scale] using HasDerivAt.const_mul amp h

theorem LHessAt.scale {P : LPot} {x t : ℝ} (amp : ℝ) (h : LHessAt P x t) :
    LHessAt (P.scale amp) x t := by
  simpa [LHessAt, LPot.scale] using HasDerivAt.const_mul amp h

/-- Two branches that agree to first order at a point. -/
theorem hd_ite {p : ℝ → Prop} [DecidablePred p] {f g : ℝ → ℝ} {d a : ℝ} (hf : HasDerivAt f d a)
    (hg : HasDerivAt g d a) (e : f a = g a) :
    HasDerivAt (fun x => if p x then f x else g x) d a := by
  have h1 : HasDerivWithinAt (fun x => if p x then f x else g x) d {x | p x} a := by
    refine hf.hasDerivWithinAt.congr (fun x hx => ?_) ?_
    · exact if_pos hx
    · split_ifs <;> simp [e]
  have h2 : HasDerivWithinAt (fun x => if p x then f x else g x) d {x | ¬ p x} a := by
    refine hg.hasDerivWithinAt.congr (fun x hx => ?_) ?_
    · exact if_neg hx
    · split_ifs <;> simp [e]
  have h := h1.union h2
  have u : {x | p x} ∪ {x | ¬ p x} = Set.univ := by ext x; simp [em]
  rw [u, hasDerivWithinAt_univ] at h
  exact h

/-- A branch that is taken on a neighbourhood. -/
theorem hd_ite_pos {p : ℝ → Prop} [DecidablePred p] {f g : ℝ → ℝ} {d a : ℝ}
    (hf : HasDerivAt f d a) (e : ∀ᶠ x in 𝓝 a, p x) :
    HasDerivAt (fun x => if p x then f x else g x) d a :=
  hf.congr_of_eventuallyEq (e.mono fun _ h => if_pos h)

theorem hd_ite_neg {p : ℝ → Prop} [DecidablePred p] {f g : ℝ → ℝ} {d a : ℝ}
    (hg : HasDerivAt g d a) (e : ∀ᶠ x in 𝓝 a, ¬ p x) :
    HasDerivAt (fun x => if p x then f x else g x) d a :=
  hg.congr_of_eventuallyEq (e.mono fun _ h => if_neg h)

end Verif
