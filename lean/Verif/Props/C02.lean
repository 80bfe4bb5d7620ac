import Verif.Lemmas.Pot.Burkert
import Verif.Lemmas.Pot.DehnenSpecial
import Verif.Lemmas.Pot.FlattenedPower
import Verif.Lemmas.Pot.Isochrone
import Verif.Lemmas.Pot.KuzminDisk
import Verif.Lemmas.Pot.LogarithmicHalo
import Verif.Lemmas.Pot.MiyamotoNagai
import Verif.Lemmas.Pot.Plummer
import Verif.Lemmas.Pot.PowerSpherical
import Verif.Lemmas.Pot.PseudoIsothermal
import Verif.Lemmas.Pot.Shells
import Verif.Lemmas.Pot.TwoPower
import Verif.Lemmas.Pot.Ops

set_option autoImplicit false

/-!
# C02: second-derivative methods are the Hessian of the potential

The six second-derivative methods (amplitude included) are the second partial derivatives of the
*value*, mixed ones in both orders of differentiation.
-/

namespace Verif

/-- Plummer. -/
theorem C02_Plummer (amp b R z φ t : ℝ) (h : 0 < R ^ 2 + z ^ 2 + b ^ 2) :
    HessAt ((Plummer.pot b).scale amp) R z φ t :=
  ((Plummer.consistent b).scale amp).hess R z φ t h
example : HessAt ((Plummer.pot 1).scale 3) 1 1 0 0 :=
  C02_Plummer 3 1 1 1 0 0 (by norm_num)

/-- Isochrone. -/
theorem C02_Isochrone (amp b R z φ t : ℝ) (hb : 0 ≤ b) (h : 0 < R ^ 2 + z ^ 2 + b ^ 2) :
    HessAt ((Isochrone.pot b).scale amp) R z φ t :=
  ((Isochrone.consistent hb).scale amp).hess R z φ t h
example : HessAt ((Isochrone.pot 1).scale 3) 1 1 0 0 :=
  C02_Isochrone 3 1 1 1 0 0 (by norm_num) (by norm_num)

/-- MiyamotoNagai. `scalar` selects the float / array code path of the Python methods -/
theorem C02_MiyamotoNagai (scalar : Bool) (amp a b R z φ t : ℝ) (hz : 0 < z ^ 2 + b ^ 2) (hu : 0 < R ^ 2 + (a + √(z ^ 2 + b ^ 2)) ^ 2) :
    HessAt ((MiyamotoNagai.pot scalar a b).scale amp) R z φ t :=
  ((MiyamotoNagai.consistent scalar a b).scale amp).hess R z φ t ⟨hz, hu⟩
example : HessAt ((MiyamotoNagai.pot true 1 1).scale 3) 1 1 0 0 :=
  C02_MiyamotoNagai true 3 1 1 1 1 0 0 (by norm_num) (by positivity)

/-- KuzminDisk. Off the razor-thin disk (`z = 0`), where the potential is not differentiable -/
theorem C02_KuzminDisk (amp a R z φ t : ℝ) (ha : 0 ≤ a) (h : z ≠ 0) :
    HessAt ((KuzminDisk.pot a).scale amp) R z φ t :=
  ((KuzminDisk.consistent ha).scale amp).hess R z φ t h
example : HessAt ((KuzminDisk.pot 1).scale 3) 1 1 0 0 :=
  C02_KuzminDisk 3 1 1 1 0 0 (by norm_num) (by norm_num)

/-- LogarithmicHalo_axi. Axisymmetric instance (`b=None`) -/
theorem C02_LogarithmicHalo_axi (amp q core2 R z φ t : ℝ) (hq : q ≠ 0) (h : 0 < R ^ 2 + (z / q) ^ 2 + core2) :
    HessAt ((LogarithmicHalo.pot q core2 none).scale amp) R z φ t :=
  ((LogarithmicHalo.consistent_axi hq).scale amp).hess R z φ t h
example : HessAt ((LogarithmicHalo.pot 1 1 none).scale 3) 1 1 0 0 :=
  C02_LogarithmicHalo_axi 3 1 1 1 1 0 0 (by norm_num) (by norm_num)

/-- LogarithmicHalo_nonaxi. Triaxial instance (`b` given) -/
theorem C02_LogarithmicHalo_nonaxi (amp q core2 b R z φ t : ℝ) (hq : q ≠ 0) (hR0 : R ≠ 0) (h : 0 < R ^ 2 * (1 - (1 - 1 / b ^ 2) * Real.sin φ ^ 2) + (z / q) ^ 2 + core2) :
    HessAt ((LogarithmicHalo.pot q core2 (some b)).scale amp) R z φ t :=
  ((LogarithmicHalo.consistent_nonaxi hq).scale amp).hess R z φ t ⟨h, hR0⟩
example : HessAt ((LogarithmicHalo.pot 1 1 (some 1)).scale 3) 1 1 0 0 :=
  C02_LogarithmicHalo_nonaxi 3 1 1 1 1 1 0 0 (by norm_num) (by norm_num) (by norm_num)

/-- PowerSpherical. Includes `KeplerPotential` (α = 3) and the point mass -/
theorem C02_PowerSpherical (amp α R z φ t : ℝ) (h : 0 < R ^ 2 + z ^ 2) :
    HessAt ((PowerSpherical.pot α).scale amp) R z φ t :=
  ((PowerSpherical.consistent α).scale amp).hess R z φ t h
example : HessAt ((PowerSpherical.pot 2).scale 3) 1 1 0 0 :=
  C02_PowerSpherical 3 2 1 1 0 0 (by norm_num)

/-- FlattenedPower. `q2`, `c2` are the squared flattening and core radius the constructor stores -/
theorem C02_FlattenedPower (amp α q2 c2 R z φ t : ℝ) (hq : q2 ≠ 0) (h : 0 < c2 + R ^ 2 + z ^ 2 / q2) :
    HessAt ((FlattenedPower.pot α q2 c2).scale amp) R z φ t :=
  ((FlattenedPower.consistent α c2 hq).scale amp).hess R z φ t h
example : HessAt ((FlattenedPower.pot 1 1 1).scale 3) 1 1 0 0 :=
  C02_FlattenedPower 3 1 1 1 1 1 0 0 (by norm_num) (by norm_num)

/-- Burkert. -/
theorem C02_Burkert (amp a R z φ t : ℝ) (ha : 0 < a) (h : 0 < R ^ 2 + z ^ 2) :
    HessAt ((Burkert.pot a).scale amp) R z φ t :=
  ((Burkert.consistent ha).scale amp).hess R z φ t (Real.sqrt_pos.2 h)
example : HessAt ((Burkert.pot 2).scale 3) 1 1 0 0 :=
  C02_Burkert 3 2 1 1 0 0 (by norm_num) (by norm_num)

/-- PseudoIsothermal. -/
theorem C02_PseudoIsothermal (amp a R z φ t : ℝ) (ha : 0 < a) (h : 0 < R ^ 2 + z ^ 2) :
    HessAt ((PseudoIsothermal.pot a).scale amp) R z φ t :=
  ((PseudoIsothermal.consistent ha).scale amp).hess R z φ t (Real.sqrt_pos.2 h)
example : HessAt ((PseudoIsothermal.pot 2).scale 3) 1 1 0 0 :=
  C02_PseudoIsothermal 3 2 1 1 0 0 (by norm_num) (by norm_num)

/-- Dehnen. `DehnenSphericalPotential` for every α (the constructor requires 0 ≤ α < 3), with its
`_specialSelf` dispatch for α = 0, 1, 2 -/
theorem C02_Dehnen (amp a α R z φ t : ℝ) (ha : 0 < a) (h3 : α ≠ 3) (h : 0 < R ^ 2 + z ^ 2) :
    HessAt ((Dehnen.cls a α).scale amp) R z φ t :=
  ((Dehnen.consistent_cls ha h3).scale amp).hess R z φ t (Real.sqrt_pos.2 h)
example : HessAt ((Dehnen.cls 2 1).scale 3) 1 1 0 0 :=
  C02_Dehnen 3 2 1 1 1 0 0 (by norm_num) (by norm_num) (by norm_num)

/-- DehnenCore. -/
theorem C02_DehnenCore (amp a R z φ t : ℝ) (ha : 0 < a) (h : 0 < R ^ 2 + z ^ 2) :
    HessAt ((DehnenCore.pot a).scale amp) R z φ t :=
  ((DehnenCore.consistent ha).scale amp).hess R z φ t (Real.sqrt_pos.2 h)
example : HessAt ((DehnenCore.pot 2).scale 3) 1 1 0 0 :=
  C02_DehnenCore 3 2 1 1 0 0 (by norm_num) (by norm_num)

/-- Hernquist. -/
theorem C02_Hernquist (amp a R z φ t : ℝ) (ha : 0 < a) (h : 0 < R ^ 2 + z ^ 2) :
    HessAt ((Hernquist.pot a).scale amp) R z φ t :=
  ((Hernquist.consistent ha).scale amp).hess R z φ t (Real.sqrt_pos.2 h)
example : HessAt ((Hernquist.pot 2).scale 3) 1 1 0 0 :=
  C02_Hernquist 3 2 1 1 0 0 (by norm_num) (by norm_num)

/-- Jaffe. -/
theorem C02_Jaffe (amp a R z φ t : ℝ) (ha : 0 < a) (h : 0 < R ^ 2 + z ^ 2) :
    HessAt ((Jaffe.pot a).scale amp) R z φ t :=
  ((Jaffe.consistent ha).scale amp).hess R z φ t (Real.sqrt_pos.2 h)
example : HessAt ((Jaffe.pot 2).scale 3) 1 1 0 0 :=
  C02_Jaffe 3 2 1 1 0 0 (by norm_num) (by norm_num)

/-- NFW. -/
theorem C02_NFW (amp a R z φ t : ℝ) (ha : 0 < a) (h : 0 < R ^ 2 + z ^ 2) :
    HessAt ((NFW.pot a).scale amp) R z φ t :=
  ((NFW.consistent ha).scale amp).hess R z φ t (Real.sqrt_pos.2 h)
example : HessAt ((NFW.pot 2).scale 3) 1 1 0 0 :=
  C02_NFW 3 2 1 1 0 0 (by norm_num) (by norm_num)

/-- SphericalShell. -/
theorem C02_SphericalShell (amp a R z φ t : ℝ) (ha : 0 < a) (h : 0 < R ^ 2 + z ^ 2) (hne : √(R ^ 2 + z ^ 2) ≠ a) :
    HessAt ((SphericalShell.pot a).scale amp) R z φ t :=
  ((SphericalShell.consistent ha).scale amp).hess R z φ t ⟨Real.sqrt_pos.2 h, hne⟩
example : HessAt ((SphericalShell.pot 2).scale 3) 0 1 0 0 :=
  C02_SphericalShell 3 2 0 1 0 0 (by norm_num) (by norm_num) (by norm_num)

/-- HomogeneousSphere. Inside and outside; the surface itself is covered for C01 by `C01_HomogeneousSphere_surface` -/
theorem C02_HomogeneousSphere (amp a R z φ t : ℝ) (ha : 0 < a) (h : R ^ 2 + z ^ 2 ≠ a ^ 2) :
    HessAt ((HomogeneousSphere.pot a).scale amp) R z φ t :=
  ((HomogeneousSphere.consistent ha).scale amp).hess R z φ t h
example : HessAt ((HomogeneousSphere.pot 2).scale 3) 1 1 0 0 :=
  C02_HomogeneousSphere 3 2 1 1 0 0 (by norm_num) (by norm_num)

end Verif
