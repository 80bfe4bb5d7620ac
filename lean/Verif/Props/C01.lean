import Verif.Lemmas.Pot.Burkert
import Verif.Lemmas.Pot.DehnenSpecial
import Verif.Lemmas.Pot.FlattenedPower
import Verif.Lemmas.Pot.Isochrone
import Verif.Lemmas.Pot.KuzminDisk
import Verif.Lemmas.Pot.LogarithmicHalo
import Verif.Lemmas.Pot.MiyamotoNagai
import Verif.Lemmas.Pot.Plummer
import Verif.Lemmas.Pot.PowerSpherical
import Verif.Lemmas.Pot.PseudoIsothermal
import Verif.Lemmas.Pot.Shells
import Verif.Lemmas.Pot.TwoPower
import Verif.Lemmas.Pot.Ops

set_option autoImplicit false

/-!
# C01: forces are minus the gradient of the potential

For each closed-form potential: the public methods (amplitude included) `Rforce`, `zforce`,
`phitorque` are minus the partial derivatives of the value, at every regular point.
-/

namespace Verif

/-- Plummer. -/
theorem C01_Plummer (amp b R z φ t : ℝ) (h : 0 < R ^ 2 + z ^ 2 + b ^ 2) :
    GradAt ((Plummer.pot b).scale amp) R z φ t :=
  ((Plummer.consistent b).scale amp).grad R z φ t h
example : GradAt ((Plummer.pot 1).scale 3) 1 1 0 0 :=
  C01_Plummer 3 1 1 1 0 0 (by norm_num)

/-- Isochrone. -/
theorem C01_Isochrone (amp b R z φ t : ℝ) (hb : 0 ≤ b) (h : 0 < R ^ 2 + z ^ 2 + b ^ 2) :
    GradAt ((Isochrone.pot b).scale amp) R z φ t :=
  ((Isochrone.consistent hb).scale amp).grad R z φ t h
example : GradAt ((Isochrone.pot 1).scale 3) 1 1 0 0 :=
  C01_Isochrone 3 1 1 1 0 0 (by norm_num) (by norm_num)

/-- MiyamotoNagai. `scalar` selects the float / array code path of the Python methods -/
theorem C01_MiyamotoNagai (scalar : Bool) (amp a b R z φ t : ℝ) (hz : 0 < z ^ 2 + b ^ 2) (hu : 0 < R ^ 2 + (a + √(z ^ 2 + b ^ 2)) ^ 2) :
    GradAt ((MiyamotoNagai.pot scalar a b).scale amp) R z φ t :=
  ((MiyamotoNagai.consistent scalar a b).scale amp).grad R z φ t ⟨hz, hu⟩
example : GradAt ((MiyamotoNagai.pot true 1 1).scale 3) 1 1 0 0 :=
  C01_MiyamotoNagai true 3 1 1 1 1 0 0 (by norm_num) (by positivity)

/-- KuzminDisk. Off the razor-thin disk (`z = 0`), where the potential is not differentiable -/
theorem C01_KuzminDisk (amp a R z φ t : ℝ) (ha : 0 ≤ a) (h : z ≠ 0) :
    GradAt ((KuzminDisk.pot a).scale amp) R z φ t :=
  ((KuzminDisk.consistent ha).scale amp).grad R z φ t h
example : GradAt ((KuzminDisk.pot 1).scale 3) 1 1 0 0 :=
  C01_KuzminDisk 3 1 1 1 0 0 (by norm_num) (by norm_num)

/-- LogarithmicHalo_axi. Axisymmetric instance (`b=None`) -/
theorem C01_LogarithmicHalo_axi (amp q core2 R z φ t : ℝ) (hq : q ≠ 0) (h : 0 < R ^ 2 + (z / q) ^ 2 + core2) :
    GradAt ((LogarithmicHalo.pot q core2 none).scale amp) R z φ t :=
  ((LogarithmicHalo.consistent_axi hq).scale amp).grad R z φ t h
example : GradAt ((LogarithmicHalo.pot 1 1 none).scale 3) 1 1 0 0 :=
  C01_LogarithmicHalo_axi 3 1 1 1 1 0 0 (by norm_num) (by norm_num)

/-- LogarithmicHalo_nonaxi. Triaxial instance (`b` given) -/
theorem C01_LogarithmicHalo_nonaxi (amp q core2 b R z φ t : ℝ) (hq : q ≠ 0) (hR0 : R ≠ 0) (h : 0 < R ^ 2 * (1 - (1 - 1 / b ^ 2) * Real.sin φ ^ 2) + (z / q) ^ 2 + core2) :
    GradAt ((LogarithmicHalo.pot q core2 (some b)).scale amp) R z φ t :=
  ((LogarithmicHalo.consistent_nonaxi hq).scale amp).grad R z φ t ⟨h, hR0⟩
example : GradAt ((LogarithmicHalo.pot 1 1 (some 1)).scale 3) 1 1 0 0 :=
  C01_LogarithmicHalo_nonaxi 3 1 1 1 1 1 0 0 (by norm_num) (by norm_num) (by norm_num)

/-- PowerSpherical. Includes `KeplerPotential` (α = 3) and the point mass -/
theorem C01_PowerSpherical (amp α R z φ t : ℝ) (h : 0 < R ^ 2 + z ^ 2) :
    GradAt ((PowerSpherical.pot α).scale amp) R z φ t :=
  ((PowerSpherical.consistent α).scale amp).grad R z φ t h
example : GradAt ((PowerSpherical.pot 2).scale 3) 1 1 0 0 :=
  C01_PowerSpherical 3 2 1 1 0 0 (by norm_num)

/-- FlattenedPower. `q2`, `c2` are the squared flattening and core radius the constructor stores -/
theorem C01_FlattenedPower (amp α q2 c2 R z φ t : ℝ) (hq : q2 ≠ 0) (h : 0 < c2 + R ^ 2 + z ^ 2 / q2) :
    GradAt ((FlattenedPower.pot α q2 c2).scale amp) R z φ t :=
  ((FlattenedPower.consistent α c2 hq).scale amp).grad R z φ t h
example : GradAt ((FlattenedPower.pot 1 1 1).scale 3) 1 1 0 0 :=
  C01_FlattenedPower 3 1 1 1 1 1 0 0 (by norm_num) (by norm_num)

/-- Burkert. -/
theorem C01_Burkert (amp a R z φ t : ℝ) (ha : 0 < a) (h : 0 < R ^ 2 + z ^ 2) :
    GradAt ((Burkert.pot a).scale amp) R z φ t :=
  ((Burkert.consistent ha).scale amp).grad R z φ t (Real.sqrt_pos.2 h)
example : GradAt ((Burkert.pot 2).scale 3) 1 1 0 0 :=
  C01_Burkert 3 2 1 1 0 0 (by norm_num) (by norm_num)

/-- PseudoIsothermal. -/
theorem C01_PseudoIsothermal (amp a R z φ t : ℝ) (ha : 0 < a) (h : 0 < R ^ 2 + z ^ 2) :
    GradAt ((PseudoIsothermal.pot a).scale amp) R z φ t :=
  ((PseudoIsothermal.consistent ha).scale amp).grad R z φ t (Real.sqrt_pos.2 h)
example : GradAt ((PseudoIsothermal.pot 2).scale 3) 1 1 0 0 :=
  C01_PseudoIsothermal 3 2 1 1 0 0 (by norm_num) (by norm_num)

/-- Dehnen. `DehnenSphericalPotential` for every α (the constructor requires 0 ≤ α < 3), with its
`_specialSelf` dispatch for α = 0, 1, 2 -/
theorem C01_Dehnen (amp a α R z φ t : ℝ) (ha : 0 < a) (h3 : α ≠ 3) (h : 0 < R ^ 2 + z ^ 2) :
    GradAt ((Dehnen.cls a α).scale amp) R z φ t :=
  ((Dehnen.consistent_cls ha h3).scale amp).grad R z φ t (Real.sqrt_pos.2 h)
example : GradAt ((Dehnen.cls 2 1).scale 3) 1 1 0 0 :=
  C01_Dehnen 3 2 1 1 1 0 0 (by norm_num) (by norm_num) (by norm_num)

/-- DehnenCore. -/
theorem C01_DehnenCore (amp a R z φ t : ℝ) (ha : 0 < a) (h : 0 < R ^ 2 + z ^ 2) :
    GradAt ((DehnenCore.pot a).scale amp) R z φ t :=
  ((DehnenCore.consistent ha).scale amp).grad R z φ t (Real.sqrt_pos.2 h)
example : GradAt ((DehnenCore.pot 2).scale 3) 1 1 0 0 :=
  C01_DehnenCore 3 2 1 1 0 0 (by norm_num) (by norm_num)

/-- Hernquist. -/
theorem C01_Hernquist (amp a R z φ t : ℝ) (ha : 0 < a) (h : 0 < R ^ 2 + z ^ 2) :
    GradAt ((Hernquist.pot a).scale amp) R z φ t :=
  ((Hernquist.consistent ha).scale amp).grad R z φ t (Real.sqrt_pos.2 h)
example : GradAt ((Hernquist.pot 2).scale 3) 1 1 0 0 :=
  C01_Hernquist 3 2 1 1 0 0 (by norm_num) (by norm_num)

/-- Jaffe. -/
theorem C01_Jaffe (amp a R z φ t : ℝ) (ha : 0 < a) (h : 0 < R ^ 2 + z ^ 2) :
    GradAt ((Jaffe.pot a).scale amp) R z φ t :=
  ((Jaffe.consistent ha).scale amp).grad R z φ t (Real.sqrt_pos.2 h)
example : GradAt ((Jaffe.pot 2).scale 3) 1 1 0 0 :=
  C01_Jaffe 3 2 1 1 0 0 (by norm_num) (by norm_num)

/-- NFW. -/
theorem C01_NFW (amp a R z φ t : ℝ) (ha : 0 < a) (h : 0 < R ^ 2 + z ^ 2) :
    GradAt ((NFW.pot a).scale amp) R z φ t :=
  ((NFW.consistent ha).scale amp).grad R z φ t (Real.sqrt_pos.2 h)
example : GradAt ((NFW.pot 2).scale 3) 1 1 0 0 :=
  C01_NFW 3 2 1 1 0 0 (by norm_num) (by norm_num)

/-- SphericalShell. -/
theorem C01_SphericalShell (amp a R z φ t : ℝ) (ha : 0 < a) (h : 0 < R ^ 2 + z ^ 2) (hne : √(R ^ 2 + z ^ 2) ≠ a) :
    GradAt ((SphericalShell.pot a).scale amp) R z φ t :=
  ((SphericalShell.consistent ha).scale amp).grad R z φ t ⟨Real.sqrt_pos.2 h, hne⟩
example : GradAt ((SphericalShell.pot 2).scale 3) 0 1 0 0 :=
  C01_SphericalShell 3 2 0 1 0 0 (by norm_num) (by norm_num) (by norm_num)

/-- HomogeneousSphere. Inside and outside; the surface itself is covered for C01 by `C01_HomogeneousSphere_surface` -/
theorem C01_HomogeneousSphere (amp a R z φ t : ℝ) (ha : 0 < a) (h : R ^ 2 + z ^ 2 ≠ a ^ 2) :
    GradAt ((HomogeneousSphere.pot a).scale amp) R z φ t :=
  ((HomogeneousSphere.consistent ha).scale amp).grad R z φ t h
example : GradAt ((HomogeneousSphere.pot 2).scale 3) 1 1 0 0 :=
  C01_HomogeneousSphere 3 2 1 1 0 0 (by norm_num) (by norm_num)

/-- HomogeneousSphere on its surface `r = a`, where the two branches join. -/
theorem C01_HomogeneousSphere_surface (amp a R z φ t : ℝ) (ha : 0 < a) (h : R ^ 2 + z ^ 2 = a ^ 2) :
    GradAt ((HomogeneousSphere.pot a).scale amp) R z φ t :=
  (HomogeneousSphere.grad_boundary ha R z φ t h).scale amp
example : GradAt ((HomogeneousSphere.pot 5).scale 3) 3 4 0 0 :=
  C01_HomogeneousSphere_surface 3 5 3 4 0 0 (by norm_num) (by norm_num)

end Verif
