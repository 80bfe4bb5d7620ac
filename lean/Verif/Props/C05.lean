import Verif.Props.C04
import Verif.Lemmas.Pot.Spherical

set_option autoImplicit false

/-!
# C05: the SphericalPotential base class is consistent

For every radial profile a subclass may supply.
-/

noncomputable section
open Filter Topology Real

namespace Verif
open Spherical

/-- A user-defined subclass supplies `revaluate = v`, `rforce = -v'` and `r2deriv = v''` on a set of
positive radii (default density). Then forces, Hessian, Poisson equation and enclosed mass of the
public methods are right at every point whose spherical radius is in that set. -/
theorem C05_default (v f d2 : ℝ → ℝ → ℝ) (amp : ℝ) (S : Set ℝ) (hS : IsOpen S) (hpos : ∀ r ∈ S, 0 < r)
    (hf : ∀ r ∈ S, ∀ t, HasDerivAt (fun x => v x t) (-f r t) r)
    (h2 : ∀ r ∈ S, ∀ t, HasDerivAt (fun x => f x t) (-d2 r t) r)
    (R z φ t : ℝ) (h : √(R ^ 2 + z ^ 2) ∈ S) :
    let Q := (Spherical.pot ⟨v, f, d2, rdensDefault f d2⟩).scale amp
    GradAt Q R z φ t ∧ HessAt Q R z φ t ∧ (R ≠ 0 → PoissonAt Q R z φ t) ∧
      amp * Spherical.mass ⟨v, f, d2, rdensDefault f d2⟩ (√(R ^ 2 + z ^ 2)) t = gaussMass Q R z φ t ∧
      HasDerivAt (fun r => amp * Spherical.mass ⟨v, f, d2, rdensDefault f d2⟩ r t)
        (4 * π * √(R ^ 2 + z ^ 2) ^ 2 * Q.dens R z φ t) (√(R ^ 2 + z ^ 2)) := by
  intro Q
  have ok : RadialOK ⟨v, f, d2, rdensDefault f d2⟩ S :=
    ⟨hS, hpos, hf, h2, fun r _ t => rdensDefault_ok f d2 r t⟩
  have c := (Spherical.consistent ok).scale amp
  refine ⟨c.grad R z φ t h, c.hess R z φ t h, fun hR => c.poisson R z φ t h hR, ?_, ?_⟩
  · have hp := hpos _ h
    have k := sqrt_pos.1 hp
    have e2 : R ^ 2 + z ^ 2 = √(R ^ 2 + z ^ 2) ^ 2 := (sq_sqrt k.le).symm
    simp only [gaussMass, Q, Pot.scale, Spherical.pot, Spherical.mass, Spherical.Rforce, Spherical.zforce]
    generalize √(R ^ 2 + z ^ 2) = r at *
    rw [show R * (amp * (f r t * R / r)) + z * (amp * (f r t * z / r)) =
      amp * f r t * (R ^ 2 + z ^ 2) / r by ring, e2]
    field_simp
  · exact ((Spherical.mass_deriv ok (t := t) h).const_mul amp).congr_deriv
      (by simp only [Q, Pot.scale, Spherical.pot, Spherical.dens]; ring)

/-- The same for a subclass that overrides `_rdens` by a function satisfying the radial Poisson
equation of its own force. -/
theorem C05_rdens (v f d2 d : ℝ → ℝ → ℝ) (amp : ℝ) (S : Set ℝ) (hS : IsOpen S) (hpos : ∀ r ∈ S, 0 < r)
    (hf : ∀ r ∈ S, ∀ t, HasDerivAt (fun x => v x t) (-f r t) r)
    (h2 : ∀ r ∈ S, ∀ t, HasDerivAt (fun x => f x t) (-d2 r t) r)
    (hd : ∀ r ∈ S, ∀ t, HasDerivAt (fun x => -x ^ 2 * f x t) (4 * π * r ^ 2 * d r t) r)
    (R z φ t : ℝ) (h : √(R ^ 2 + z ^ 2) ∈ S) :
    let Q := (Spherical.pot ⟨v, f, d2, d⟩).scale amp
    GradAt Q R z φ t ∧ HessAt Q R z φ t ∧ (R ≠ 0 → PoissonAt Q R z φ t) ∧
      amp * Spherical.mass ⟨v, f, d2, d⟩ (√(R ^ 2 + z ^ 2)) t = gaussMass Q R z φ t ∧
      HasDerivAt (fun r => amp * Spherical.mass ⟨v, f, d2, d⟩ r t)
        (4 * π * √(R ^ 2 + z ^ 2) ^ 2 * Q.dens R z φ t) (√(R ^ 2 + z ^ 2)) := by
  intro Q
  have e : ∀ r ∈ S, ∀ t, d r t = rdensDefault f d2 r t := by
    intro r hr t
    have hp := hpos r hr
    have hm := hd_mul (hd_neg (hd_pow 2 (hd_id r))) (h2 r hr t)
    have := hm.unique (hd r hr t)
    unfold rdensDefault
    have hpi := pi_ne_zero
    norm_num at this
    field_simp
    have h3 : r * (4 * π * r * d r t) = r * (r * d2 r t - 2 * f r t) := by
      linear_combination -this
    linear_combination mul_left_cancel₀ hp.ne' h3
  have ok : RadialOK ⟨v, f, d2, d⟩ S :=
    ⟨hS, hpos, hf, h2, fun r hr t => by
      rw [show (Radial.mk v f d2 d).dens r t = rdensDefault f d2 r t from e r hr t]
      exact rdensDefault_ok f d2 r t⟩
  have c := (Spherical.consistent ok).scale amp
  refine ⟨c.grad R z φ t h, c.hess R z φ t h, fun hR => c.poisson R z φ t h hR, ?_, ?_⟩
  · exact (C05_default v f d2 amp S hS hpos hf h2 R z φ t h).2.2.2.1
  · exact ((Spherical.mass_deriv ok (t := t) h).const_mul amp).congr_deriv
      (by simp only [Q, Pot.scale, Spherical.pot, Spherical.dens]; ring)

/-- A time-dependent user profile `v = t r³`, `rforce = -3 t r²`, `r2deriv = 6 t r`. -/
example : GradAt ((Spherical.pot ⟨fun r t => t * r ^ 3, fun r t => -(3 * t * r ^ 2), fun r t => 6 * t * r,
    rdensDefault (fun r t => -(3 * t * r ^ 2)) (fun r t => 6 * t * r)⟩).scale 2) 3 4 0 5 := by
  refine (C05_default _ _ _ 2 (Set.Ioi 0) isOpen_Ioi (fun r h => h) ?_ ?_ 3 4 0 5 ?_).1
  · intro r _ t
    refine ((hasDerivAt_pow 3 r).const_mul t).congr_deriv ?_
    norm_num; ring
  · intro r _ t
    refine ((hasDerivAt_pow 2 r).const_mul (3 * t)).neg.congr_deriv ?_
    norm_num; ring
  · exact Real.sqrt_pos.2 (by norm_num)

end Verif
