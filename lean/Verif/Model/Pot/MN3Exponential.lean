import Verif.Model.Pot.MiyamotoNagai
import Verif.Model.Pot.Ops

set_option autoImplicit false

/-!
# MN3ExponentialDiskPotential

Transcription of `galpy/potential/MN3ExponentialDiskPotential.py`: three Miyamoto-Nagai disks with parameters from polynomial
fits.  Units and the `normalize` argument are modelled elsewhere; the warning of lines 89-94 is the predicate `inRange`.
-/

noncomputable section
namespace Verif.MN3Exponential
open Real

/-- `_mass1_tab1`, MN3ExponentialDiskPotential.py:208-215. -/
def mass1tab1 (x : ℝ) : ℝ := -0.0090 * x ^ 4 + 0.0640 * x ^ 3 - 0.1653 * x ^ 2 + 0.1164 * x + 1.9487
/-- `_mass2_tab1`, MN3ExponentialDiskPotential.py:218-225. -/
def mass2tab1 (x : ℝ) : ℝ := 0.0173 * x ^ 4 - 0.0903 * x ^ 3 + 0.0877 * x ^ 2 + 0.2029 * x - 1.3077
/-- `_mass3_tab1`, MN3ExponentialDiskPotential.py:228-235. -/
def mass3tab1 (x : ℝ) : ℝ := -0.0051 * x ^ 4 + 0.0287 * x ^ 3 - 0.0361 * x ^ 2 - 0.0544 * x + 0.2242
/-- `_a1_tab1`, MN3ExponentialDiskPotential.py:238-245. -/
def a1tab1 (x : ℝ) : ℝ := -0.0358 * x ^ 4 + 0.2610 * x ^ 3 - 0.6987 * x ^ 2 - 0.1193 * x + 2.0074
/-- `_a2_tab1`, MN3ExponentialDiskPotential.py:248-255. -/
def a2tab1 (x : ℝ) : ℝ := -0.0830 * x ^ 4 + 0.4992 * x ^ 3 - 0.7967 * x ^ 2 - 1.2966 * x + 4.4441
/-- `_a3_tab1`, MN3ExponentialDiskPotential.py:258-265. -/
def a3tab1 (x : ℝ) : ℝ := -0.0247 * x ^ 4 + 0.1718 * x ^ 3 - 0.4124 * x ^ 2 - 0.5944 * x + 0.7333
/-- `_mass1_tab2`, MN3ExponentialDiskPotential.py:269-276. -/
def mass1tab2 (x : ℝ) : ℝ := 0.0036 * x ^ 4 - 0.0330 * x ^ 3 + 0.1117 * x ^ 2 - 0.1335 * x + 0.1749
/-- `_mass2_tab2`, MN3ExponentialDiskPotential.py:279-286. -/
def mass2tab2 (x : ℝ) : ℝ := -0.0131 * x ^ 4 + 0.1090 * x ^ 3 - 0.3035 * x ^ 2 + 0.2921 * x - 5.7976
/-- `_mass3_tab2`, MN3ExponentialDiskPotential.py:289-296. -/
def mass3tab2 (x : ℝ) : ℝ := -0.0048 * x ^ 4 + 0.0454 * x ^ 3 - 0.1425 * x ^ 2 + 0.1012 * x + 6.7120
/-- `_a1_tab2`, MN3ExponentialDiskPotential.py:299-306. -/
def a1tab2 (x : ℝ) : ℝ := -0.0158 * x ^ 4 + 0.0993 * x ^ 3 - 0.2070 * x ^ 2 - 0.7089 * x + 0.6445
/-- `_a2_tab2`, MN3ExponentialDiskPotential.py:309-316. -/
def a2tab2 (x : ℝ) : ℝ := -0.0319 * x ^ 4 + 0.1514 * x ^ 3 - 0.1279 * x ^ 2 - 0.9325 * x + 2.6836
/-- `_a3_tab2`, MN3ExponentialDiskPotential.py:319-326. -/
def a3tab2 (x : ℝ) : ℝ := -0.0326 * x ^ 4 + 0.1816 * x ^ 3 - 0.2943 * x ^ 2 - 0.6329 * x + 2.3193
/-- `_b_exphz`, MN3ExponentialDiskPotential.py:330-331. -/
def bExphz (h : ℝ) : ℝ := -0.269 * h ^ 3 + 1.080 * h ^ 2 + 1.092 * h
/-- `_b_sechhz`, MN3ExponentialDiskPotential.py:334-335. -/
def bSechhz (h : ℝ) : ℝ := -0.033 * h ^ 3 + 0.262 * h ^ 2 + 0.659 * h

/-- The attributes: the amplitude, the three pairs `(mn3[i]._amp, mn3[i]._a)` and the common `b`. -/
structure Par where
  amp : ℝ
  m1 : ℝ
  a1 : ℝ
  m2 : ℝ
  a2 : ℝ
  m3 : ℝ
  a3 : ℝ
  b : ℝ

/-- `self._brd`, MN3ExponentialDiskPotential.py:80-83. -/
def brd (hr hz : ℝ) (sech : Bool) : ℝ := if sech = true then bSechhz (hz / hr) else bExphz (hz / hr)

/-- No warning, MN3ExponentialDiskPotential.py:89. -/
def inRange (x : ℝ) (posdens : Bool) : Prop := ¬((posdens = false ∧ x > 3) ∨ (posdens = true ∧ x > 1.35))

/-- `__init__`, MN3ExponentialDiskPotential.py:71-132; `none` is the OSError of lines 84-87. -/
def init (amp hr hz : ℝ) (sech posdens : Bool) : Option Par :=
  let x := brd hr hz sech;
  if x < 0 then none
  else if posdens = true then
    some ⟨amp * (4 * π * hr ^ 2 * hz), mass1tab2 x, a1tab2 x * hr, mass2tab2 x, a2tab2 x * hr, mass3tab2 x, a3tab2 x * hr,
      x * hr⟩
  else
    some ⟨amp * (4 * π * hr ^ 2 * hz), mass1tab1 x, a1tab1 x * hr, mass2tab1 x, a2tab1 x * hr, mass3tab1 x, a3tab1 x * hr,
      x * hr⟩

/-- The three disks `self._mn3`, MN3ExponentialDiskPotential.py:97-132, with their amplitudes. `scalar` is the code path of
MiyamotoNagaiPotential. -/
def mn1 (scalar : Bool) (p : Par) : Pot := (MiyamotoNagai.pot scalar p.a1 p.b).scale p.m1
/-- See `mn1`. -/
def mn2 (scalar : Bool) (p : Par) : Pot := (MiyamotoNagai.pot scalar p.a2 p.b).scale p.m2
/-- See `mn1`. -/
def mn3 (scalar : Bool) (p : Par) : Pot := (MiyamotoNagai.pot scalar p.a3 p.b).scale p.m3

/-- The methods, MN3ExponentialDiskPotential.py:146-193 (without the factor `amp`); the azimuthal ones are the defaults 0 of
`Potential`. -/
def pot (s : Bool) (p : Par) : Pot :=
  Pot.axi
    (fun R z => (mn1 s p).val R z 0 0 + (mn2 s p).val R z 0 0 + (mn3 s p).val R z 0 0)
    (fun R z => (mn1 s p).Rforce R z 0 0 + (mn2 s p).Rforce R z 0 0 + (mn3 s p).Rforce R z 0 0)
    (fun R z => (mn1 s p).zforce R z 0 0 + (mn2 s p).zforce R z 0 0 + (mn3 s p).zforce R z 0 0)
    (fun R z => (mn1 s p).R2deriv R z 0 0 + (mn2 s p).R2deriv R z 0 0 + (mn3 s p).R2deriv R z 0 0)
    (fun R z => (mn1 s p).z2deriv R z 0 0 + (mn2 s p).z2deriv R z 0 0 + (mn3 s p).z2deriv R z 0 0)
    (fun R z => (mn1 s p).Rzderiv R z 0 0 + (mn2 s p).Rzderiv R z 0 0 + (mn3 s p).Rzderiv R z 0 0)
    (fun R z => (mn1 s p).dens R z 0 0 + (mn2 s p).dens R z 0 0 + (mn3 s p).dens R z 0 0)

/-- The three argument triples `(amp, a, b)` that the parsers pass for three C Miyamoto-Nagai disks
(integrateFullOrbit.py:182-198, integratePlanarOrbit.py:197-215). -/
def cArgs (p : Par) : List (ℝ × ℝ × ℝ) := [(p.amp * p.m1, p.a1, p.b), (p.amp * p.m2, p.a2, p.b), (p.amp * p.m3, p.a3, p.b)]

/-- The C code's sum of a function over the disks (`calcRforce` etc., galpy_potentials.c). -/
def cSum (f : ℝ → ℝ → ℝ → ℝ) (p : Par) : ℝ := ((cArgs p).map fun c => f c.1 c.2.1 c.2.2).sum

end Verif.MN3Exponential
