import Verif.Model.Coords
import Verif.Model.Pot.Isochrone

set_option autoImplicit false

/-!
# Action-angle coordinates of the isochrone potential

`galpy/actionAngle/actionAngleIsochrone.py` and `actionAngleIsochroneInverse.py`, for single points.
Clipping (`coseta > 1` and the like) is modelled; `nan` is not: where the code replaces infinite or undefined values by
`phi`, the condition is written as the vanishing of the denominator.
-/

noncomputable section
namespace Verif.IsochroneAA
open Real

/-- Normalisation from `b` alone (actionAngleIsochrone.py 64-65): circular velocity one at radius one. -/
def ampOf (b : ℝ) : ℝ :=
  let rb := √(b ^ 2 + 1)
  (b + rb) ^ 2 * rb

/-- Phase-space point `(R, vR, vT, z, vz, phi)`. -/
structure Point where
  R : ℝ
  vR : ℝ
  vT : ℝ
  z : ℝ
  vz : ℝ
  phi : ℝ

/-- Angular momentum about the axis, `Lz` (actionAngleIsochrone.py 124). -/
def Lz (p : Point) : ℝ := p.R * p.vT
/-- `L2` (actionAngleIsochrone.py 125-127). -/
def L2 (p : Point) : ℝ :=
  let Lx := -p.z * p.vT
  let Ly := p.z * p.vR - p.R * p.vz
  Lx * Lx + Ly * Ly + Lz p * Lz p
/-- `E` (actionAngleIsochrone.py 128); the potential is `IsochronePotential(amp, b)`. -/
def E (amp b : ℝ) (p : Point) : ℝ :=
  amp * Isochrone.evaluate b p.R p.z + p.vR ^ 2 / 2 + p.vT ^ 2 / 2 + p.vz ^ 2 / 2
/-- `L` (actionAngleIsochrone.py 129). -/
def L (p : Point) : ℝ := √(L2 p)

/-- `Jz` (actionAngleIsochrone.py 132). -/
def Jz (p : Point) : ℝ := L p - |Lz p|
/-- `Jr` (actionAngleIsochrone.py 133-135). -/
def Jr (amp b : ℝ) (p : Point) : ℝ :=
  amp / √(-2 * E amp b p) - (1 / 2) * (L p + √(L2 p + 4 * amp * b))

/-- `Omegar` (actionAngleIsochrone.py 193). -/
def Omegar (amp b : ℝ) (p : Point) : ℝ := (-2 * E amp b p) ^ (3 / 2 : ℝ) / amp
/-- `Omegaz` (actionAngleIsochrone.py 194). -/
def Omegaz (amp b : ℝ) (p : Point) : ℝ := 1 / 2 * (1 + L p / √(L2 p + 4 * amp * b)) * Omegar amp b p
/-- `Omegaphi` (actionAngleIsochrone.py 195-197). -/
def Omegaphi (amp b : ℝ) (p : Point) : ℝ := if Lz p < 0 then Omegaz amp b p * -1 else Omegaz amp b p

/-- `_evaluate` (actionAngleIsochrone.py 82-136). -/
def actions (amp b : ℝ) (p : Point) : ℝ × ℝ × ℝ := (Jr amp b p, Lz p, Jz p)
/-- `_actionsFreqs` (actionAngleIsochrone.py 138-198): the frequencies. -/
def freqs (amp b : ℝ) (p : Point) : ℝ × ℝ × ℝ := (Omegar amp b p, Omegaphi amp b p, Omegaz amp b p)

/-- Clipping to `[-1, 1]`. -/
def clip (x : ℝ) : ℝ := if x > 1 then 1 else if x < -1 then -1 else x
/-- `x % (2 pi)`. -/
def mod2pi (x : ℝ) : ℝ := x - 2 * π * ⌊x / (2 * π)⌋

/-- `arctan(k * tan(x))`.  The floating-point tangent of `pi / 2` is a huge number, whose arctangent is `pi / 2`, while the
tangent of Lean is zero there. -/
def atanTan (k x : ℝ) : ℝ := if cos x = 0 then π / 2 else arctan (k * tan x)

/-- `c` (actionAngleIsochrone.py 263). -/
def c (amp b : ℝ) (p : Point) : ℝ := -amp / 2 / E amp b p - b
/-- `e` (actionAngleIsochrone.py 264-265). -/
def e (amp b : ℝ) (p : Point) : ℝ := √(1 - L2 p / amp / c amp b p * (1 + b / c amp b p))
/-- `coseta` before clipping (actionAngleIsochrone.py 266-270). -/
def coseta (amp b : ℝ) (p : Point) : ℝ :=
  if b = 0 then 1 / e amp b p * (1 - √(p.R ^ 2 + p.z ^ 2) / c amp b p)
  else
    let s := 1 + √(1 + (p.R ^ 2 + p.z ^ 2) / b ^ 2)
    1 / e amp b p * (1 - b / c amp b p * (s - 2))
/-- `costheta` (actionAngleIsochrone.py 276). -/
def costheta (p : Point) : ℝ := p.z / √(p.R ^ 2 + p.z ^ 2)
/-- `sintheta` (actionAngleIsochrone.py 277). -/
def sintheta (p : Point) : ℝ := p.R / √(p.R ^ 2 + p.z ^ 2)
/-- `eta` (actionAngleIsochrone.py 271-279). -/
def eta (amp b : ℝ) (p : Point) : ℝ :=
  let eta := arccos (clip (coseta amp b p))
  if p.vR * sintheta p + p.vz * costheta p < 0 then 2 * π - eta else eta
/-- `angler` before the final modulus (actionAngleIsochrone.py 280). -/
def angler (amp b : ℝ) (p : Point) : ℝ :=
  eta amp b p - e amp b p * c amp b p / (c amp b p + b) * sin (eta amp b p)
/-- `tan11` (actionAngleIsochrone.py 281-283, 289). -/
def tan11 (amp b : ℝ) (p : Point) : ℝ :=
  let t := atanTan (√((1 + e amp b p) / (1 - e amp b p))) (1 / 2 * eta amp b p)
  if t < 0 then t + π else t
/-- `tan12` (actionAngleIsochrone.py 284-287, 290). -/
def tan12 (amp b : ℝ) (p : Point) : ℝ :=
  let t := atanTan (√((1 + e amp b p + 2 * b / c amp b p) / (1 - e amp b p + 2 * b / c amp b p)))
    (1 / 2 * eta amp b p)
  if t < 0 then t + π else t
/-- `vzindx` (actionAngleIsochrone.py 288). -/
def vzindx (p : Point) : Prop := -p.vz * sintheta p + p.vR * costheta p > 0
/-- `sini` (actionAngleIsochrone.py 291-295); the clipping of `Lz / L` only removes rounding errors. -/
def sini (p : Point) : ℝ := √(L p ^ 2 - Lz p ^ 2) / L p
/-- `tani` (actionAngleIsochrone.py 296). -/
def tani (p : Point) : ℝ := √(L p ^ 2 - Lz p ^ 2) / Lz p

open Classical in
/-- `psi` before the modulus (actionAngleIsochrone.py 297-305). -/
def psi (p : Point) : ℝ :=
  if sini p = 0 then p.phi
  else
    let psi := arcsin (clip (costheta p / sini p))
    if vzindx p then π - psi else psi

/-- `anglez` before the final modulus (actionAngleIsochrone.py 306-312). -/
def anglez (amp b : ℝ) (p : Point) : ℝ :=
  mod2pi (psi p) + Omegaz amp b p / Omegar amp b p * angler amp b p - tan11 amp b p
    - 1 / √(1 + 4 * amp * b / L2 p) * tan12 amp b p

open Classical in
/-- `u` (actionAngleIsochrone.py 313-321). -/
def u (p : Point) : ℝ :=
  if sini p = 0 then p.phi
  else
    let u := arcsin (clip (p.z / p.R / tani p))
    if vzindx p then π - u else u

/-- `anglephi` before the final modulus (actionAngleIsochrone.py 322-325). -/
def anglephi (amp b : ℝ) (p : Point) : ℝ :=
  if Lz p < 0 then p.phi - u p - anglez amp b p else p.phi - u p + anglez amp b p

/-- The angles of `_actionsFreqsAngles` (actionAngleIsochrone.py 326-329). -/
def angles (amp b : ℝ) (p : Point) : ℝ × ℝ × ℝ :=
  (mod2pi (angler amp b p), mod2pi (anglephi amp b p), mod2pi (anglez amp b p))

/-- `smin` (actionAngleIsochrone.py 368-378). -/
def smin (amp b : ℝ) (p : Point) : ℝ :=
  1 / 2 * ((2 * E amp b p - amp / b) + √((2 * E amp b p - amp / b) ^ 2
    + 2 * E amp b p * (4 * amp / b + L2 p / b ^ 2))) / E amp b p
/-- `smax` (actionAngleIsochrone.py 379). -/
def smax (amp b : ℝ) (p : Point) : ℝ := 2 - amp / E amp b p / b - smin amp b p
/-- `rperi` (actionAngleIsochrone.py 357-366, 380). -/
def rperi (amp b : ℝ) (p : Point) : ℝ :=
  if b = 0 then
    let a := -amp / 2 / E amp b p
    a * (1 - √(1 - L2 p / amp / a))
  else smin amp b p * √(1 - 2 / smin amp b p) * b
/-- `rap` (actionAngleIsochrone.py 357-366, 381). -/
def rap (amp b : ℝ) (p : Point) : ℝ :=
  if b = 0 then
    let a := -amp / 2 / E amp b p
    a * (1 + √(1 - L2 p / amp / a))
  else smax amp b p * √(1 - 2 / smax amp b p) * b
/-- `_EccZmaxRperiRap` (actionAngleIsochrone.py 382-387). -/
def eccZmaxRperiRap (amp b : ℝ) (p : Point) : ℝ × ℝ × ℝ × ℝ :=
  ((rap amp b p - rperi amp b p) / (rap amp b p + rperi amp b p), rap amp b p * √(1 - Lz p ^ 2 / L2 p), rperi amp b p,
    rap amp b p)

/-! ### The inverse -/

/-- `L` (actionAngleIsochroneInverse.py 134). -/
def invL (jphi jz : ℝ) : ℝ := jz + |jphi|
/-- `sqrtfourbkL2` (actionAngleIsochroneInverse.py 136). -/
def invRoot (amp b jphi jz : ℝ) : ℝ := √(invL jphi jz ^ 2 + 4 * b * amp)
/-- `H` (actionAngleIsochroneInverse.py 137, 218). -/
def invH (amp b jr jphi jz : ℝ) : ℝ := -2 * amp ^ 2 / (2 * jr + invL jphi jz + invRoot amp b jphi jz) ^ 2
/-- `omegar` (actionAngleIsochroneInverse.py 139, 220). -/
def invOmegar (amp b jr jphi jz : ℝ) : ℝ := (-2 * invH amp b jr jphi jz) ^ (3 / 2 : ℝ) / amp
/-- `omegaz` (actionAngleIsochroneInverse.py 140, 221). -/
def invOmegaz (amp b jr jphi jz : ℝ) : ℝ :=
  (1 + invL jphi jz / invRoot amp b jphi jz) / 2 * invOmegar amp b jr jphi jz
/-- `_Freqs` (actionAngleIsochroneInverse.py 194-222). -/
def invFreqs (amp b jr jphi jz : ℝ) : ℝ × ℝ × ℝ :=
  (invOmegar amp b jr jphi jz, SignType.sign jphi * invOmegaz amp b jr jphi jz, invOmegaz amp b jr jphi jz)

/-- `a` (actionAngleIsochroneInverse.py 142). -/
def invA (amp b jr jphi jz : ℝ) : ℝ := -amp / 2 / invH amp b jr jphi jz - b
/-- `e` (actionAngleIsochroneInverse.py 144). -/
def invE (amp b jr jphi jz : ℝ) : ℝ :=
  √(1 + invL jphi jz ^ 2 / (2 * invH amp b jr jphi jz * invA amp b jr jphi jz ^ 2))

/-- The function whose root `eta` the solvers look for (actionAngleIsochroneInverse.py 153-162). -/
def kepler (amp b jr jphi jz ar x : ℝ) : ℝ :=
  x - invA amp b jr jphi jz * invE amp b jr jphi jz / (invA amp b jr jphi jz + b) * sin x - ar

/-- The rest of `_xvFreqs` (actionAngleIsochroneInverse.py 163-192) for a solution `eta` of Kepler's equation with the
radial angle `ar`, which the code first reduces to `[0, 2 pi)` (146-147).  The two numerical solvers (150-162) are not modelled. -/
def xvOf (amp b jr jphi jz ar anglephi anglez eta : ℝ) : Point :=
  let L := invL jphi jz
  let a := invA amp b jr jphi jz
  let ab := a + b
  let e := invE amp b jr jphi jz
  let r := a * √((1 - e * cos eta) * (1 - e * cos eta + 2 * b / a))
  let vr := √(amp / ab) * a * e * sin eta / r
  let tan11 := atanTan (√((1 + e) / (1 - e))) (eta / 2)
  let tan12 := atanTan (√((a * (1 + e) + 2 * b) / (a * (1 - e) + 2 * b))) (eta / 2)
  let tan11 := if tan11 < 0 then tan11 + π else tan11
  let tan12 := if tan12 < 0 then tan12 + π else tan12
  let Lambdaeta := tan11 + L / invRoot amp b jphi jz * tan12
  let psi := anglez - invOmegaz amp b jr jphi jz / invOmegar amp b jr jphi jz * ar + Lambdaeta
  let lowerl := √(1 - jphi ^ 2 / L ^ 2)
  let sintheta := sin psi * lowerl
  let costheta := √(1 - sintheta ^ 2)
  let vtheta := L * lowerl * cos psi / costheta / r
  let R := r * costheta
  let z := r * sintheta
  let vR := vr * costheta - vtheta * sintheta
  let vz := vr * sintheta + vtheta * costheta
  let sinu := sintheta / costheta * jphi / L / lowerl
  let u := if vtheta < 0 then π - arcsin sinu else arcsin sinu
  let phi := if lowerl = 0 then psi else anglephi - SignType.sign jphi * anglez + u
  ⟨R, vR, jphi / R, z, vz, mod2pi phi⟩

end Verif.IsochroneAA
