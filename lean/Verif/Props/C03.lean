import Verif.Lemmas.Pot.Burkert
import Verif.Lemmas.Pot.DehnenSpecial
import Verif.Lemmas.Pot.FlattenedPower
import Verif.Lemmas.Pot.Isochrone
import Verif.Lemmas.Pot.KuzminDisk
import Verif.Lemmas.Pot.LogarithmicHalo
import Verif.Lemmas.Pot.MiyamotoNagai
import Verif.Lemmas.Pot.Plummer
import Verif.Lemmas.Pot.PowerSpherical
import Verif.Lemmas.Pot.PseudoIsothermal
import Verif.Lemmas.Pot.Shells
import Verif.Lemmas.Pot.TwoPower
import Verif.Lemmas.Pot.Ops

set_option autoImplicit false

/-!
# C03: the density satisfies the Poisson equation

`4 π dens` equals the cylindrical Laplacian of the value (amplitude included), off the axis
`R = 0` where that form of the Laplacian divides by `R`.
-/

namespace Verif

/-- Plummer. -/
theorem C03_Plummer (amp b R z φ t : ℝ) (h : 0 < R ^ 2 + z ^ 2 + b ^ 2) (hR0 : R ≠ 0) :
    PoissonAt ((Plummer.pot b).scale amp) R z φ t :=
  ((Plummer.consistent b).scale amp).poisson R z φ t h hR0
example : PoissonAt ((Plummer.pot 1).scale 3) 1 1 0 0 :=
  C03_Plummer 3 1 1 1 0 0 (by norm_num) (by norm_num)

/-- Isochrone. -/
theorem C03_Isochrone (amp b R z φ t : ℝ) (hb : 0 ≤ b) (h : 0 < R ^ 2 + z ^ 2 + b ^ 2) (hR0 : R ≠ 0) :
    PoissonAt ((Isochrone.pot b).scale amp) R z φ t :=
  ((Isochrone.consistent hb).scale amp).poisson R z φ t h hR0
example : PoissonAt ((Isochrone.pot 1).scale 3) 1 1 0 0 :=
  C03_Isochrone 3 1 1 1 0 0 (by norm_num) (by norm_num) (by norm_num)

/-- MiyamotoNagai. `scalar` selects the float / array code path of the Python methods -/
theorem C03_MiyamotoNagai (scalar : Bool) (amp a b R z φ t : ℝ) (hz : 0 < z ^ 2 + b ^ 2) (hu : 0 < R ^ 2 + (a + √(z ^ 2 + b ^ 2)) ^ 2) (hR0 : R ≠ 0) :
    PoissonAt ((MiyamotoNagai.pot scalar a b).scale amp) R z φ t :=
  ((MiyamotoNagai.consistent scalar a b).scale amp).poisson R z φ t ⟨hz, hu⟩ hR0
example : PoissonAt ((MiyamotoNagai.pot true 1 1).scale 3) 1 1 0 0 :=
  C03_MiyamotoNagai true 3 1 1 1 1 0 0 (by norm_num) (by positivity) (by norm_num)

/-- KuzminDisk. Off the razor-thin disk (`z = 0`), where the potential is not differentiable -/
theorem C03_KuzminDisk (amp a R z φ t : ℝ) (ha : 0 ≤ a) (h : z ≠ 0) (hR0 : R ≠ 0) :
    PoissonAt ((KuzminDisk.pot a).scale amp) R z φ t :=
  ((KuzminDisk.consistent ha).scale amp).poisson R z φ t h hR0
example : PoissonAt ((KuzminDisk.pot 1).scale 3) 1 1 0 0 :=
  C03_KuzminDisk 3 1 1 1 0 0 (by norm_num) (by norm_num) (by norm_num)

/-- LogarithmicHalo_axi. Axisymmetric instance (`b=None`) -/
theorem C03_LogarithmicHalo_axi (amp q core2 R z φ t : ℝ) (hq : q ≠ 0) (h : 0 < R ^ 2 + (z / q) ^ 2 + core2) (hR0 : R ≠ 0) :
    PoissonAt ((LogarithmicHalo.pot q core2 none).scale amp) R z φ t :=
  ((LogarithmicHalo.consistent_axi hq).scale amp).poisson R z φ t h hR0
example : PoissonAt ((LogarithmicHalo.pot 1 1 none).scale 3) 1 1 0 0 :=
  C03_LogarithmicHalo_axi 3 1 1 1 1 0 0 (by norm_num) (by norm_num) (by norm_num)

/-- LogarithmicHalo_nonaxi. Triaxial instance (`b` given) -/
theorem C03_LogarithmicHalo_nonaxi (amp q core2 b R z φ t : ℝ) (hq : q ≠ 0) (hR0 : R ≠ 0) (h : 0 < R ^ 2 * (1 - (1 - 1 / b ^ 2) * Real.sin φ ^ 2) + (z / q) ^ 2 + core2) :
    PoissonAt ((LogarithmicHalo.pot q core2 (some b)).scale amp) R z φ t :=
  ((LogarithmicHalo.consistent_nonaxi hq).scale amp).poisson R z φ t ⟨h, hR0⟩ hR0
example : PoissonAt ((LogarithmicHalo.pot 1 1 (some 1)).scale 3) 1 1 0 0 :=
  C03_LogarithmicHalo_nonaxi 3 1 1 1 1 1 0 0 (by norm_num) (by norm_num) (by norm_num)

/-- PowerSpherical. Includes `KeplerPotential` (α = 3) and the point mass -/
theorem C03_PowerSpherical (amp α R z φ t : ℝ) (h : 0 < R ^ 2 + z ^ 2) (hR0 : R ≠ 0) :
    PoissonAt ((PowerSpherical.pot α).scale amp) R z φ t :=
  ((PowerSpherical.consistent α).scale amp).poisson R z φ t h hR0
example : PoissonAt ((PowerSpherical.pot 2).scale 3) 1 1 0 0 :=
  C03_PowerSpherical 3 2 1 1 0 0 (by norm_num) (by norm_num)

/-- FlattenedPower. `q2`, `c2` are the squared flattening and core radius the constructor stores -/
theorem C03_FlattenedPower (amp α q2 c2 R z φ t : ℝ) (hq : q2 ≠ 0) (h : 0 < c2 + R ^ 2 + z ^ 2 / q2) (hR0 : R ≠ 0) :
    PoissonAt ((FlattenedPower.pot α q2 c2).scale amp) R z φ t :=
  ((FlattenedPower.consistent α c2 hq).scale amp).poisson R z φ t h hR0
example : PoissonAt ((FlattenedPower.pot 1 1 1).scale 3) 1 1 0 0 :=
  C03_FlattenedPower 3 1 1 1 1 1 0 0 (by norm_num) (by norm_num) (by norm_num)

/-- Burkert. -/
theorem C03_Burkert (amp a R z φ t : ℝ) (ha : 0 < a) (h : 0 < R ^ 2 + z ^ 2) (hR0 : R ≠ 0) :
    PoissonAt ((Burkert.pot a).scale amp) R z φ t :=
  ((Burkert.consistent ha).scale amp).poisson R z φ t (Real.sqrt_pos.2 h) hR0
example : PoissonAt ((Burkert.pot 2).scale 3) 1 1 0 0 :=
  C03_Burkert 3 2 1 1 0 0 (by norm_num) (by norm_num) (by norm_num)

/-- PseudoIsothermal. -/
theorem C03_PseudoIsothermal (amp a R z φ t : ℝ) (ha : 0 < a) (h : 0 < R ^ 2 + z ^ 2) (hR0 : R ≠ 0) :
    PoissonAt ((PseudoIsothermal.pot a).scale amp) R z φ t :=
  ((PseudoIsothermal.consistent ha).scale amp).poisson R z φ t (Real.sqrt_pos.2 h) hR0
example : PoissonAt ((PseudoIsothermal.pot 2).scale 3) 1 1 0 0 :=
  C03_PseudoIsothermal 3 2 1 1 0 0 (by norm_num) (by norm_num) (by norm_num)

/-- Dehnen. `DehnenSphericalPotential` for every α (the constructor requires 0 ≤ α < 3), with its
`_specialSelf` dispatch for α = 0, 1, 2 -/
theorem C03_Dehnen (amp a α R z φ t : ℝ) (ha : 0 < a) (h3 : α ≠ 3) (h : 0 < R ^ 2 + z ^ 2) (hR0 : R ≠ 0) :
    PoissonAt ((Dehnen.cls a α).scale amp) R z φ t :=
  ((Dehnen.consistent_cls ha h3).scale amp).poisson R z φ t (Real.sqrt_pos.2 h) hR0
example : PoissonAt ((Dehnen.cls 2 1).scale 3) 1 1 0 0 :=
  C03_Dehnen 3 2 1 1 1 0 0 (by norm_num) (by norm_num) (by norm_num) (by norm_num)

/-- DehnenCore. -/
theorem C03_DehnenCore (amp a R z φ t : ℝ) (ha : 0 < a) (h : 0 < R ^ 2 + z ^ 2) (hR0 : R ≠ 0) :
    PoissonAt ((DehnenCore.pot a).scale amp) R z φ t :=
  ((DehnenCore.consistent ha).scale amp).poisson R z φ t (Real.sqrt_pos.2 h) hR0
example : PoissonAt ((DehnenCore.pot 2).scale 3) 1 1 0 0 :=
  C03_DehnenCore 3 2 1 1 0 0 (by norm_num) (by norm_num) (by norm_num)

/-- Hernquist. -/
theorem C03_Hernquist (amp a R z φ t : ℝ) (ha : 0 < a) (h : 0 < R ^ 2 + z ^ 2) (hR0 : R ≠ 0) :
    PoissonAt ((Hernquist.pot a).scale amp) R z φ t :=
  ((Hernquist.consistent ha).scale amp).poisson R z φ t (Real.sqrt_pos.2 h) hR0
example : PoissonAt ((Hernquist.pot 2).scale 3) 1 1 0 0 :=
  C03_Hernquist 3 2 1 1 0 0 (by norm_num) (by norm_num) (by norm_num)

/-- Jaffe. -/
theorem C03_Jaffe (amp a R z φ t : ℝ) (ha : 0 < a) (h : 0 < R ^ 2 + z ^ 2) (hR0 : R ≠ 0) :
    PoissonAt ((Jaffe.pot a).scale amp) R z φ t :=
  ((Jaffe.consistent ha).scale amp).poisson R z φ t (Real.sqrt_pos.2 h) hR0
example : PoissonAt ((Jaffe.pot 2).scale 3) 1 1 0 0 :=
  C03_Jaffe 3 2 1 1 0 0 (by norm_num) (by norm_num) (by norm_num)

/-- NFW. -/
theorem C03_NFW (amp a R z φ t : ℝ) (ha : 0 < a) (h : 0 < R ^ 2 + z ^ 2) (hR0 : R ≠ 0) :
    PoissonAt ((NFW.pot a).scale amp) R z φ t :=
  ((NFW.consistent ha).scale amp).poisson R z φ t (Real.sqrt_pos.2 h) hR0
example : PoissonAt ((NFW.pot 2).scale 3) 1 1 0 0 :=
  C03_NFW 3 2 1 1 0 0 (by norm_num) (by norm_num) (by norm_num)

/-- SphericalShell. -/
theorem C03_SphericalShell (amp a R z φ t : ℝ) (ha : 0 < a) (h : 0 < R ^ 2 + z ^ 2) (hne : √(R ^ 2 + z ^ 2) ≠ a) (hR0 : R ≠ 0) :
    PoissonAt ((SphericalShell.pot a).scale amp) R z φ t :=
  ((SphericalShell.consistent ha).scale amp).poisson R z φ t ⟨Real.sqrt_pos.2 h, hne⟩ hR0
example : PoissonAt ((SphericalShell.pot 2).scale 3) 1 0 0 0 :=
  C03_SphericalShell 3 2 1 0 0 0 (by norm_num) (by norm_num) (by norm_num) (by norm_num)

/-- HomogeneousSphere. Inside and outside; the surface itself is covered for C01 by `C01_HomogeneousSphere_surface` -/
theorem C03_HomogeneousSphere (amp a R z φ t : ℝ) (ha : 0 < a) (h : R ^ 2 + z ^ 2 ≠ a ^ 2) (hR0 : R ≠ 0) :
    PoissonAt ((HomogeneousSphere.pot a).scale amp) R z φ t :=
  ((HomogeneousSphere.consistent ha).scale amp).poisson R z φ t h hR0
example : PoissonAt ((HomogeneousSphere.pot 2).scale 3) 1 1 0 0 :=
  C03_HomogeneousSphere 3 2 1 1 0 0 (by norm_num) (by norm_num) (by norm_num)

end Verif
