import Verif.Lemmas.Pot.KuzminKutuzov
import Verif.Lemmas.Pot.Ops

set_option autoImplicit false

/-!
# C01, C02, C03, C51 for KuzminKutuzovStaeckelPotential

The domain leaves out only the focus (`R = 0`, `z = ±Delta`), where the spheroidal coordinates are not differentiable.
-/

namespace Verif

namespace C01aux
theorem off_focus {D R z : ℝ} (h : R ≠ 0 ∧ D ≠ 0 ∨ R ^ 2 + z ^ 2 ≠ D ^ 2) : 0 < KuzminKutuzov.disc D R z := by
  unfold KuzminKutuzov.disc
  rcases h with ⟨hR, hD⟩ | h
  · positivity
  · have : R ^ 2 + z ^ 2 - D ^ 2 ≠ 0 := sub_ne_zero.2 h
    positivity
end C01aux

/-- KuzminKutuzovStaeckel, `ac` the axis ratio of the coordinate surfaces and `D` the focal distance. -/
theorem C01_KuzminKutuzov (amp ac D R z φ t : ℝ) (hac : 1 < ac) (hD : D ≠ 0) (h : R ≠ 0 ∨ R ^ 2 + z ^ 2 ≠ D ^ 2) :
    GradAt ((KuzminKutuzov.pot ac D).scale amp) R z φ t :=
  ((KuzminKutuzov.consistent hac hD).scale amp).grad R z φ t (C01aux.off_focus (h.imp_left (⟨·, hD⟩)))
example : GradAt ((KuzminKutuzov.pot 5 1).scale 3) 1 1 0 0 :=
  C01_KuzminKutuzov 3 5 1 1 1 0 0 (by norm_num) (by norm_num) (by norm_num)

theorem C02_KuzminKutuzov (amp ac D R z φ t : ℝ) (hac : 1 < ac) (hD : D ≠ 0) (h : R ≠ 0 ∨ R ^ 2 + z ^ 2 ≠ D ^ 2) :
    HessAt ((KuzminKutuzov.pot ac D).scale amp) R z φ t :=
  ((KuzminKutuzov.consistent hac hD).scale amp).hess R z φ t (C01aux.off_focus (h.imp_left (⟨·, hD⟩)))
example : HessAt ((KuzminKutuzov.pot 5 1).scale 3) 1 1 0 0 :=
  C02_KuzminKutuzov 3 5 1 1 1 0 0 (by norm_num) (by norm_num) (by norm_num)

theorem C03_KuzminKutuzov (amp ac D R z φ t : ℝ) (hac : 1 < ac) (hD : D ≠ 0) (hR : R ≠ 0) :
    PoissonAt ((KuzminKutuzov.pot ac D).scale amp) R z φ t :=
  ((KuzminKutuzov.consistent hac hD).scale amp).poisson R z φ t (C01aux.off_focus (Or.inl ⟨hR, hD⟩)) hR
example : PoissonAt ((KuzminKutuzov.pot 5 1).scale 3) 1 1 0 0 :=
  C03_KuzminKutuzov 3 5 1 1 1 0 0 (by norm_num) (by norm_num) (by norm_num)

/-- The C functions; there is no density in C. -/
theorem C51_KuzminKutuzov (amp ac D R z φ t : ℝ) (hac : 1 < ac) (hD : D ≠ 0) (h : R ≠ 0 ∨ R ^ 2 + z ^ 2 ≠ D ^ 2) :
    KuzminKutuzov.cEval amp ac D R z = ((KuzminKutuzov.pot ac D).scale amp).val R z φ t ∧
    KuzminKutuzov.cRforce amp ac D R z = ((KuzminKutuzov.pot ac D).scale amp).Rforce R z φ t ∧
    KuzminKutuzov.czforce amp ac D R z = ((KuzminKutuzov.pot ac D).scale amp).zforce R z φ t ∧
    KuzminKutuzov.cR2deriv amp ac D R z = ((KuzminKutuzov.pot ac D).scale amp).R2deriv R z φ t ∧
    KuzminKutuzov.cz2deriv amp ac D R z = ((KuzminKutuzov.pot ac D).scale amp).z2deriv R z φ t ∧
    KuzminKutuzov.cRzderiv amp ac D R z = ((KuzminKutuzov.pot ac D).scale amp).Rzderiv R z φ t :=
  have k := C01aux.off_focus (h.imp_left (⟨·, hD⟩))
  ⟨KuzminKutuzov.cEval_eq amp R z hac hD, KuzminKutuzov.cRforce_eq amp ac D R z, KuzminKutuzov.czforce_eq amp ac D R z,
    KuzminKutuzov.cR2deriv_eq amp hac hD k, KuzminKutuzov.cz2deriv_eq amp hac hD k,
    KuzminKutuzov.cRzderiv_eq amp hac hD k⟩
example : KuzminKutuzov.cR2deriv 3 5 1 1 1 = ((KuzminKutuzov.pot 5 1).scale 3).R2deriv 1 1 0 0 :=
  (C51_KuzminKutuzov 3 5 1 1 1 0 0 (by norm_num) (by norm_num) (by norm_num)).2.2.2.1

theorem C51_KuzminKutuzov_planar (amp ac D R φ t : ℝ) (hD : D ≠ 0) :
    KuzminKutuzov.cPlanarRforce amp ac D R = ((KuzminKutuzov.pot ac D).scale amp).Rforce R 0 φ t ∧
    KuzminKutuzov.cPlanarR2deriv amp ac D R = ((KuzminKutuzov.pot ac D).scale amp).R2deriv R 0 φ t :=
  ⟨KuzminKutuzov.cPlanarRforce_eq amp R hD, KuzminKutuzov.cPlanarR2deriv_eq amp R hD⟩
example : KuzminKutuzov.cPlanarRforce 3 5 1 2 = ((KuzminKutuzov.pot 5 1).scale 3).Rforce 2 0 0 0 :=
  (C51_KuzminKutuzov_planar 3 5 1 2 0 0 (by norm_num)).1

end Verif
