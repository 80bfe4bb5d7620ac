import Verif.Spec.Pot

set_option autoImplicit false

/-!
# Amplitudes and sums of potentials

`galpy/potential/Potential.py` and `galpy/potential/CompositePotential.py`.
-/

namespace Verif

/-- The public methods multiply the private ones by the amplitude: Potential.py:229 (value), 359
(`R2deriv`), 393 (`z2deriv`), 426 (`phi2deriv`), 462 (`Rzderiv`), 495 (`Rphideriv`), 531
(`phizderiv`), 608 (`dens`); Force.py:290 (`Rforce`), 299 (`zforce`), 310 (`phitorque`).
Only the numeric value is modelled here: argument checks and units are in other modules. -/
def Pot.scale (amp : ℝ) (P : Pot) : Pot where
  val := fun R z φ t => amp * P.val R z φ t
  Rforce := fun R z φ t => amp * P.Rforce R z φ t
  zforce := fun R z φ t => amp * P.zforce R z φ t
  phitorque := fun R z φ t => amp * P.phitorque R z φ t
  R2deriv := fun R z φ t => amp * P.R2deriv R z φ t
  z2deriv := fun R z φ t => amp * P.z2deriv R z φ t
  Rzderiv := fun R z φ t => amp * P.Rzderiv R z φ t
  phi2deriv := fun R z φ t => amp * P.phi2deriv R z φ t
  Rphideriv := fun R z φ t => amp * P.Rphideriv R z φ t
  phizderiv := fun R z φ t => amp * P.phizderiv R z φ t
  dens := fun R z φ t => amp * P.dens R z φ t

end Verif
