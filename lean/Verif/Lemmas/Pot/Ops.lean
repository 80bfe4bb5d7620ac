import Verif.Model.Pot.Ops
import Verif.Util.PotLemmas

set_option autoImplicit false

/-! # Closure of the specifications under amplitudes -/

namespace Verif

theorem GradAt.scale {P : Pot} {R z φ t : ℝ} (amp : ℝ) (h : GradAt P R z φ t) :
    GradAt (P.scale amp) R z φ t where
  dR := by simpa [Pot.scale] using hd_const_mul amp h.dR
  dz := by simpa [Pot.scale] using hd_const_mul amp h.dz
  dphi := by simpa [Pot.scale] using hd_const_mul amp h.dphi

theorem HessAt.scale {P : Pot} {R z φ t : ℝ} (amp : ℝ) (h : HessAt P R z φ t) :
    HessAt (P.scale amp) R z φ t where
  RR := by simpa [Pot.scale, deriv_const_mul_field] using hd_const_mul amp h.RR
  Rz := by simpa [Pot.scale, deriv_const_mul_field] using hd_const_mul amp h.Rz
  Rp := by simpa [Pot.scale, deriv_const_mul_field] using hd_const_mul amp h.Rp
  zR := by simpa [Pot.scale, deriv_const_mul_field] using hd_const_mul amp h.zR
  zz := by simpa [Pot.scale, deriv_const_mul_field] using hd_const_mul amp h.zz
  zp := by simpa [Pot.scale, deriv_const_mul_field] using hd_const_mul amp h.zp
  pR := by simpa [Pot.scale, deriv_const_mul_field] using hd_const_mul amp h.pR
  pz := by simpa [Pot.scale, deriv_const_mul_field] using hd_const_mul amp h.pz
  pp := by simpa [Pot.scale, deriv_const_mul_field] using hd_const_mul amp h.pp

theorem PoissonAt.scale {P : Pot} {R z φ t : ℝ} (amp : ℝ) (h : PoissonAt P R z φ t) :
    PoissonAt (P.scale amp) R z φ t := by
  unfold PoissonAt at *
  simp only [Pot.scale, deriv_const_mul_field]
  linear_combination amp * h

theorem Consistent.scale {P : Pot} {D : ℝ → ℝ → ℝ → Prop} (amp : ℝ) (h : Consistent P D) :
    Consistent (P.scale amp) D :=
  ⟨fun _ _ _ _ k => (h.grad _ _ _ _ k).scale amp, fun _ _ _ _ k => (h.hess _ _ _ _ k).scale amp,
    fun _ _ _ _ k k' => (h.poisson _ _ _ _ k k').scale amp⟩

end Verif
