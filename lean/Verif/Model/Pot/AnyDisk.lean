import Verif.Util.Elliptic
import Verif.Util.PotLemmas
import Mathlib.Analysis.SpecialFunctions.Arsinh
import Mathlib.MeasureTheory.Integral.IntegralEqImproper

set_option autoImplicit false

/-!
# AnyAxisymmetricRazorThinDiskPotential

Transcription of `galpy/potential/AnyAxisymmetricRazorThinDiskPotential.py` for a surface density without units (line 198-199).
`special.ellipk` and `special.ellipe` are the complete elliptic integrals and `integrate.quad` is the exact integral
(the quadrature error is not modelled, nor is the branch for infinite arguments).  All methods are without the factor `amp`.
-/

noncomputable section
namespace Verif.AnyDisk
open Real MeasureTheory Set

/-- `special.ellipkm1`. -/
def ellipkm1 (p : ℝ) : ℝ := ellipk (1 - p)

/-- `_quad_apeak`, AnyAxisymmetricRazorThinDiskPotential.py:54-88. -/
def quadApeak (f : ℝ → ℝ → ℝ → ℝ) (R z : ℝ) : ℝ :=
  let az := |z|;
  let g : ℝ → ℝ := fun a => f a (a - R) ((a - R) ^ 2 + z ^ 2);
  if az = 0 ∨ az ≥ 1e-4 * R then
    (∫ a in (0 : ℝ)..(2 * R), g a) + ∫ a in Ioi (2 * R), g a
  else
    let z2 := z ^ 2;
    let tlim := min 1.0e4 (R / az);
    let lo := R - az * tlim;
    let hi := R + az * tlim;
    (∫ t in (-tlim)..tlim, f (R + az * t) (az * t) (z2 * (1 + t * t)) * az)
      + (∫ a in (0 : ℝ)..lo, g a) + (∫ a in hi..(2 * R), g a) + ∫ a in Ioi (2 * R), g a

/-- `_finite_part_quad`, AnyAxisymmetricRazorThinDiskPotential.py:91-125. -/
def finitePartQuad (f : ℝ → ℝ) (R az C : ℝ) : ℝ :=
  let sym : ℝ → ℝ := fun u => f u + f (-u);
  let inner := if az = 0 then (∫ u in (0 : ℝ)..R, (sym u - 2 * C / (u * u))) - 2 * C / R
    else ∫ t in (0 : ℝ)..(arsinh (R / az)), sym (az * sinh t) * az * cosh t;
  -4 * (inner + ∫ d in Ioi R, f d)

/-- `_evaluate`, AnyAxisymmetricRazorThinDiskPotential.py:200-203 and 209-233. -/
def evaluate (S : ℝ → ℝ) (R z : ℝ) : ℝ :=
  if R = 0 ∧ z = 0 then -2 * π * ∫ a in Ioi (0 : ℝ), S a
  else
    -4 * quadApeak (fun a _ d2 =>
      let aRz := (R + a) ^ 2 + z ^ 2;
      a * S a / √aRz * ellipkm1 (d2 / aRz)) R z

/-- `rforceint` inside `_Rforce`, AnyAxisymmetricRazorThinDiskPotential.py:240-259. -/
def rforceint (S : ℝ → ℝ) (R z a : ℝ) : ℝ :=
  let R2 := R ^ 2;
  let z2 := z ^ 2;
  let a2 := a ^ 2;
  let aRz := (a + R) ^ 2 + z2;
  let m := min (4 * a * R / aRz) 1;
  let km1 := ((a - R) ^ 2 + z2) / aRz;
  a * S a * ((a2 - R2 + z2) * ellipe m - ((a - R) ^ 2 + z2) * ellipkm1 km1) / R / ((a - R) ^ 2 + z2) / √aRz

/-- `_Rforce`, AnyAxisymmetricRazorThinDiskPotential.py:235-264. -/
def Rforce (S : ℝ → ℝ) (R z : ℝ) : ℝ :=
  2 * ((∫ a in (0 : ℝ)..(2 * R), rforceint S R z a) + ∫ a in Ioi (2 * R), rforceint S R z a)

/-- `_zforce`, AnyAxisymmetricRazorThinDiskPotential.py:266-282. -/
def zforce (S : ℝ → ℝ) (R z : ℝ) : ℝ :=
  if z = 0 then 0
  else
    let z2 := z ^ 2;
    -4 * z * quadApeak (fun a _ d2 =>
      let aRz := (a + R) ^ 2 + z2;
      let m := min (4 * a * R / aRz) 1;
      a * S a * ellipe m / d2 / √aRz) R z

/-- `az` of the second derivatives: small `|z|` counts as zero, lines 30, 287-289 and 332-334. -/
def floorZ (z : ℝ) : ℝ := if |z| < 1e-9 then 0 else |z|

/-- `r2derivint` inside `_R2deriv`, AnyAxisymmetricRazorThinDiskPotential.py:292-325. -/
def r2derivint (S : ℝ → ℝ) (R z2 d : ℝ) : ℝ :=
  let R2 := R ^ 2;
  let a := R + d;
  let a2 := R2 + 2 * R * d + d * d;
  let dz := d * d + z2;
  let a2mR2 := d * (2 * R + d);
  let aRz := (2 * R + d) ^ 2 + z2;
  let m := min (4 * a * R / aRz) 1;
  a * S a * (-(((a2 - 3 * R2) * a2mR2 ^ 2 + (3 * a2 ^ 2 + 2 * a2 * R2 + 3 * R2 ^ 2) * z2
      + (3 * a2 + 7 * R2) * z2 ^ 2 + z2 ^ 3) * ellipe m)
    + dz * (a2mR2 ^ 2 + 2 * (a2 + 2 * R2) * z2 + z2 ^ 2) * ellipkm1 (dz / aRz))
    / (2 * R2 * dz ^ 2 * aRz ^ (1.5 : ℝ))

/-- `_R2deriv`, AnyAxisymmetricRazorThinDiskPotential.py:284-327. -/
def R2deriv (S : ℝ → ℝ) (R z : ℝ) : ℝ :=
  finitePartQuad (r2derivint S R (floorZ z ^ 2)) R (floorZ z) (S R / 2)

/-- `z2derivint` inside `_z2deriv`, AnyAxisymmetricRazorThinDiskPotential.py:337-356. -/
def z2derivint (S : ℝ → ℝ) (R z2 d : ℝ) : ℝ :=
  let R2 := R ^ 2;
  let a := R + d;
  let a2 := R2 + 2 * R * d + d * d;
  let dz := d * d + z2;
  let a2mR2 := d * (2 * R + d);
  let aRz := (2 * R + d) ^ 2 + z2;
  let m := min (4 * a * R / aRz) 1;
  a * S a * (-((a2mR2 ^ 2 - 2 * (a2 + R2) * z2 - 3 * z2 ^ 2) * ellipe m) - z2 * dz * ellipkm1 (dz / aRz))
    / (dz ^ 2 * aRz ^ (1.5 : ℝ))

/-- `_z2deriv`, AnyAxisymmetricRazorThinDiskPotential.py:329-361. -/
def z2deriv (S : ℝ → ℝ) (R z : ℝ) : ℝ :=
  finitePartQuad (z2derivint S R (floorZ z ^ 2)) R (floorZ z) (-S R / 2)

/-- `_Rzderiv`, AnyAxisymmetricRazorThinDiskPotential.py:363-395. -/
def Rzderiv (S : ℝ → ℝ) (R z : ℝ) : ℝ :=
  let R2 := R ^ 2;
  let z2 := z ^ 2;
  -2 * z * quadApeak (fun a u d2 =>
    let aRz := (a + R) ^ 2 + z2;
    let m := min (4 * a * R / aRz) 1;
    let ecoeff := u * (16 * R2 * R + 4 * R * z2 + 4 * R * u * u) + u * u * (12 * R2 + 2 * z2) + u ^ 4
      - 4 * R2 * z2 + z2 * z2;
    let kcoeff := d2 * (2 * R * u + d2);
    a * S a * (-ecoeff * ellipe m + kcoeff * ellipkm1 (d2 / aRz)) / R / d2 ^ 2 / aRz ^ (1.5 : ℝ)) R z

/-- `_surfdens`, AnyAxisymmetricRazorThinDiskPotential.py:397-398. -/
def surfdens (S : ℝ → ℝ) (R _z : ℝ) : ℝ := S R

/-- The density: no `_dens`, so `Potential.dens` applies Poisson's equation to the methods, Potential.py:609-620. -/
def dens (S : ℝ → ℝ) (R z : ℝ) : ℝ :=
  (-Rforce S R z / R + R2deriv S R z + 0 / R ^ 2 + z2deriv S R z) / 4 / π

/-- The Python class as a record of methods. -/
def pot (S : ℝ → ℝ) : Pot :=
  Pot.axi (evaluate S) (Rforce S) (zforce S) (R2deriv S) (z2deriv S) (Rzderiv S) (dens S)

end Verif.AnyDisk
