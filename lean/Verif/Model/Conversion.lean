import Mathlib.Data.Real.Basic
import Mathlib.Analysis.Real.Pi.Bounds
import Mathlib.Tactic.Linarith

set_option autoImplicit false

/-!
# `galpy/util/conversion.py`

Conversion factors, the parsers of inputs with units, and the decorators that convert outputs and inputs.
-/

namespace Verif.Conversion

/-- The constants (conversion.py 19-43).  With astropy they come from `astropy.constants`, without it they are the
numbers of `fallback`. -/
structure Consts where
  /-- `_G`, in pc / Msun (km/s)^2. -/
  G : ℝ
  /-- `_kmsInPcMyr`. -/
  kms : ℝ
  /-- `_PCIN10p18CM`. -/
  pc : ℝ
  /-- `_CIN10p5KMS`. -/
  c : ℝ
  /-- `_MSOLAR10p30KG`. -/
  msol : ℝ
  /-- `_EVIN10m19J`. -/
  ev : ℝ
  /-- `_JIN10p10KM2S2Msun`. -/
  joule : ℝ
  /-- `_MyrIn1013Sec`. -/
  myr : ℝ

/-- The constants are positive. -/
structure Consts.Pos (k : Consts) : Prop where
  G : 0 < k.G
  kms : 0 < k.kms
  pc : 0 < k.pc
  c : 0 < k.c
  msol : 0 < k.msol
  ev : 0 < k.ev
  joule : 0 < k.joule
  myr : 0 < k.myr

/-- The numbers used without astropy (conversion.py 20-27, 43). -/
noncomputable def fallback : Consts where
  G := 4.302 * 10 ^ (-3 : ℤ)
  kms := 1.0227121655399913
  pc := 3.08567758
  c := 2.99792458
  msol := 1.9891
  ev := 1.60217657
  joule := 5.02914421587004215814 * 10 ^ (-47 : ℤ)
  myr := 3.65242198 * 0.24 * 3.6

section Factors

variable (k : Consts) (vo ro : ℝ)

/-- `dens_in_criticaldens` (conversion.py 70). -/
noncomputable def dens_in_criticaldens (H : ℝ) : ℝ := vo ^ 2 / ro ^ 2 * 10 ^ 6 / H ^ 2 * 8 * Real.pi / 3

/-- `dens_in_meanmatterdens` (conversion.py 98). -/
noncomputable def dens_in_meanmatterdens (H Om : ℝ) : ℝ := dens_in_criticaldens vo ro H / Om

/-- `dens_in_gevcc` (conversion.py 122-131). -/
noncomputable def dens_in_gevcc : ℝ :=
  vo ^ 2 / ro ^ 2 / k.G * k.msol * k.c ^ 2 / k.ev / k.pc ^ 3 * 10 ^ (-4 : ℤ)

/-- `dens_in_msolpc3` (conversion.py 155). -/
noncomputable def dens_in_msolpc3 : ℝ := vo ^ 2 / ro ^ 2 / k.G * 10 ^ (-6 : ℤ)

/-- `force_in_2piGmsolpc2` (conversion.py 179). -/
noncomputable def force_in_2piGmsolpc2 : ℝ := vo ^ 2 / ro / k.G * 10 ^ (-3 : ℤ) / (2 * Real.pi)

/-- `force_in_pcMyr2` (conversion.py 203). -/
noncomputable def force_in_pcMyr2 : ℝ := vo ^ 2 / ro * k.kms ^ 2 * 10 ^ (-3 : ℤ)

/-- `force_in_kmsMyr` (conversion.py 227). -/
noncomputable def force_in_kmsMyr : ℝ := vo ^ 2 / ro * k.kms * 10 ^ (-3 : ℤ)

/-- `force_in_10m13kms2` (conversion.py 251). -/
noncomputable def force_in_10m13kms2 : ℝ := vo ^ 2 / ro * k.kms * 10 ^ (-3 : ℤ) / k.myr

/-- `freq_in_Gyr` (conversion.py 275). -/
noncomputable def freq_in_Gyr : ℝ := vo / ro * k.kms

/-- `freq_in_kmskpc` (conversion.py 299). -/
noncomputable def freq_in_kmskpc : ℝ := vo / ro

/-- `surfdens_in_msolpc2` (conversion.py 323). -/
noncomputable def surfdens_in_msolpc2 : ℝ := vo ^ 2 / ro / k.G * 10 ^ (-3 : ℤ)

/-- `mass_in_msol` (conversion.py 347). -/
noncomputable def mass_in_msol : ℝ := vo ^ 2 * ro / k.G * 10 ^ (3 : ℤ)

/-- `mass_in_1010msol` (conversion.py 371). -/
noncomputable def mass_in_1010msol : ℝ := vo ^ 2 * ro / k.G * 10 ^ (-7 : ℤ)

/-- `time_in_Gyr` (conversion.py 395). -/
noncomputable def time_in_Gyr : ℝ := ro / vo / k.kms

/-- `velocity_in_kpcGyr` (conversion.py 419). -/
noncomputable def velocity_in_kpcGyr : ℝ := vo * k.kms

end Factors

/-! ### Quantities with units -/

/-- A dimension: exponents of length, velocity, mass and angle. -/
structure Dim where
  len : ℤ
  vel : ℤ
  mass : ℤ
  ang : ℤ
  deriving DecidableEq

/-- A unit, or a quantity with a unit: how much it is in units of kpc, km/s, Msun and rad, and its dimension.
Simplification: astropy knows more dimensions; electrical and other units are not modelled. -/
structure Qty where
  base : ℝ
  dim : Dim

/-- What can go wrong with inputs. -/
inductive Err where
  /-- `units.UnitConversionError`. -/
  | unitConversion
  /-- A missing scale is used in arithmetic (`TypeError`). -/
  | typeError
  /-- `UnboundLocalError`. -/
  | unbound
  /-- `AttributeError`. -/
  | attribute
  /-- `IndexError`. -/
  | index
  deriving DecidableEq

/-- `x.to(unit).value`. -/
noncomputable def Qty.to (x u : Qty) : Except Err ℝ := if x.dim = u.dim then .ok (x.base / u.base) else .error .unitConversion

/-- An input: a number (in internal units) or a quantity. -/
inductive Input where
  | number (x : ℝ)
  | quantity (x : Qty)

/-- `kpc`. -/
def kpc : Qty := ⟨1, 1, 0, 0, 0⟩
/-- `km/s`. -/
def kms : Qty := ⟨1, 0, 1, 0, 0⟩
/-- `rad`. -/
def rad : Qty := ⟨1, 0, 0, 0, 1⟩
/-- `deg`. -/
noncomputable def deg : Qty := ⟨Real.pi / 180, 0, 0, 0, 1⟩
/-- `Gyr`: a kpc is `1 / _kmsInPcMyr` Gyr at 1 km/s. -/
def Gyr (k : Consts) : Qty := ⟨k.kms, 1, -1, 0, 0⟩
/-- `Gyr**-1`. -/
noncomputable def perGyr (k : Consts) : Qty := ⟨1 / k.kms, -1, 1, 0, 0⟩
/-- `Gyr**-2`. -/
noncomputable def perGyr2 (k : Consts) : Qty := ⟨1 / k.kms ^ 2, -2, 2, 0, 0⟩
/-- `pc km^2/s^2`. -/
noncomputable def pckms2 : Qty := ⟨1 / 1000, 1, 2, 0, 0⟩
/-- `J`. -/
noncomputable def joule (k : Consts) : Qty := ⟨k.joule * 10 ^ 10, 0, 2, 1, 0⟩
/-- `1e10 Msun`. -/
noncomputable def msun1010 : Qty := ⟨10 ^ 10, 0, 0, 1, 0⟩
/-- `Msun`. -/
def msun : Qty := ⟨1, 0, 0, 1, 0⟩
/-- `km^2/s^2`. -/
def kms2 : Qty := ⟨1, 0, 2, 0, 0⟩
/-- `kpc km/s`. -/
def kpckms : Qty := ⟨1, 1, 1, 0, 0⟩
/-- `km/s/kpc`. -/
def kmskpc : Qty := ⟨1, -1, 1, 0, 0⟩
/-- `pc/Myr^2`. -/
noncomputable def pcMyr2 (k : Consts) : Qty := ⟨(1 / 1000) / (k.kms / 1000) ^ 2, -1, 2, 0, 0⟩
/-- `km/s/Myr`. -/
noncomputable def kmsMyr (k : Consts) : Qty := ⟨1 / (k.kms / 1000), -1, 2, 0, 0⟩
/-- `Msun/pc^2`. -/
noncomputable def msunpc2 : Qty := ⟨1000 ^ 2, -2, 0, 1, 0⟩
/-- `Msun/pc^3`. -/
noncomputable def msunpc3 : Qty := ⟨1000 ^ 3, -3, 0, 1, 0⟩
/-- `Msun/pc`. -/
noncomputable def msunpc : Qty := ⟨1000, -1, 0, 1, 0⟩
/-- `km^2/s^2/pc^2`. -/
noncomputable def kms2pc2 : Qty := ⟨1000 ^ 2, -2, 2, 0, 0⟩
/-- `km^2/s^2/pc`. -/
noncomputable def kms2pc : Qty := ⟨1000, -1, 2, 0, 0⟩
/-- `1/kpc^3`. -/
def perkpc3 : Qty := ⟨1, -3, 0, 0, 0⟩

/-! ### Parsers of inputs (conversion.py 600-767), for numbers and quantities -/

section Parsers

variable (k : Consts) (ro vo : ℝ)

/-- `x.to(u).value / fac` for a quantity, `x` for a number. -/
noncomputable def parse (u : Qty) (fac : ℝ) : Input → Except Err ℝ
  | .number x => .ok x
  | .quantity x => (x.to u).map (· / fac)

/-- `try: parser a; except units.UnitConversionError: parser b`. -/
def orElse (a b : Except Err ℝ) : Except Err ℝ :=
  match a with
  | .error .unitConversion => b
  | r => r

/-- `parse_length` (conversion.py 601-606). -/
noncomputable def parse_length : Input → Except Err ℝ := parse kpc ro

/-- `parse_length_kpc` (conversion.py 610-611). -/
noncomputable def parse_length_kpc : Input → Except Err ℝ := parse kpc 1

/-- `parse_velocity` (conversion.py 615-620). -/
noncomputable def parse_velocity : Input → Except Err ℝ := parse kms vo

/-- `parse_velocity_kms` (conversion.py 624-629). -/
noncomputable def parse_velocity_kms : Input → Except Err ℝ := parse kms 1

/-- `parse_angle` (conversion.py 633-634). -/
noncomputable def parse_angle : Input → Except Err ℝ := parse rad 1

/-- `parse_time` (conversion.py 638-643). -/
noncomputable def parse_time : Input → Except Err ℝ := parse (Gyr k) (time_in_Gyr k vo ro)

/-- `parse_mass` (conversion.py 647-674): first as `G M`, then as an energy `M c^2`, then as a mass. -/
noncomputable def parse_mass (x : Input) : Except Err ℝ :=
  orElse ((parse pckms2 (mass_in_msol k vo ro) x).map fun y =>
      match x with
      | .number _ => y
      | .quantity _ => y / k.G)
    (orElse (match x with
        | .number y => .ok y
        | .quantity y => (y.to (joule k)).map fun z => z * k.joule / k.c ^ 2 * k.G / ro / vo ^ 2 / 1000)
      (parse msun1010 (mass_in_1010msol k vo ro) x))

/-- `parse_energy` (conversion.py 678-683). -/
noncomputable def parse_energy : Input → Except Err ℝ := parse kms2 (vo ^ 2)

/-- `parse_angmom` (conversion.py 687-692). -/
noncomputable def parse_angmom (x : Input) : Except Err ℝ := (parse kpckms ro x).map fun y =>
  match x with
  | .number _ => y
  | .quantity _ => y / vo

/-- `parse_frequency` (conversion.py 696-701). -/
noncomputable def parse_frequency : Input → Except Err ℝ := parse kmskpc (freq_in_kmskpc vo ro)

/-- `parse_force` (conversion.py 705-718). -/
noncomputable def parse_force (x : Input) : Except Err ℝ :=
  orElse (parse (pcMyr2 k) (force_in_pcMyr2 k vo ro) x) (parse msunpc2 (force_in_2piGmsolpc2 k vo ro) x)

/-- `parse_dens` (conversion.py 722-738). -/
noncomputable def parse_dens (x : Input) : Except Err ℝ :=
  orElse (parse msunpc3 (dens_in_msolpc3 k vo ro) x) ((parse kms2pc2 (dens_in_msolpc3 k vo ro) x).map (· / k.G))

/-- `parse_surfdens` (conversion.py 742-758). -/
noncomputable def parse_surfdens (x : Input) : Except Err ℝ :=
  orElse (parse msunpc2 (surfdens_in_msolpc2 k vo ro) x) ((parse kms2pc (surfdens_in_msolpc2 k vo ro) x).map (· / k.G))

/-- `parse_numdens` (conversion.py 762-767). -/
noncomputable def parse_numdens : Input → Except Err ℝ
  | .number x => .ok x
  | .quantity x => (x.to perkpc3).map (· * ro ^ 3)

end Parsers

/-! ### Outputs -/

/-- The kinds of quantities that a method can return (conversion.py 773-804; the entry `velocity2surfacendensity`
of the tables is a misspelling that no method uses). -/
inductive Kind where
  | time | position | position_kpc | velocity | velocity2 | velocity_kms | energy | density | numberdensity | force
  | velocity2surfacedensity | surfacedensity | numbersurfacedensity | surfacedensitydistance | mass | action | frequency
  | frequency_kmskpc | forcederivative | angle | angle_deg | propermotion_masyr | phasespacedensity | phasespacedensity2d
  | phasespacedensityvelocity | phasespacedensityvelocity2 | massphasespacedensity | massenergydensity | dimensionless
  deriving DecidableEq

/-- `"_" in quantity`: the method returns numbers with units anyway (conversion.py 848). -/
def Kind.always : Kind → Bool
  | .position_kpc | .velocity_kms | .angle_deg | .propermotion_masyr => true
  | _ => false

/-- `_roNecessary` (conversion.py 773-804). -/
def Kind.roNecessary : Kind → Bool
  | .velocity | .velocity2 | .velocity_kms | .energy | .massenergydensity | .dimensionless => false
  | _ => true

/-- `_voNecessary` (conversion.py 805-814). -/
def Kind.voNecessary : Kind → Bool
  | .position | .position_kpc | .angle | .angle_deg | .dimensionless => false
  | _ => true

/-- The conversion factor (conversion.py 893-1011); `none` for a scale that is missing makes the arithmetic raise a
`TypeError`.  `asQuantity` is `_apy_units`. -/
noncomputable def Kind.factor (k : Consts) (q : Kind) (vo ro : Option ℝ) (asQuantity wantKmskpc : Bool) :
    Except Err ℝ :=
  let both (f : ℝ → ℝ → ℝ) : Except Err ℝ :=
    match vo, ro with
    | some v, some r => .ok (f v r)
    | _, _ => .error .typeError
  let onlyRo (f : ℝ → ℝ) : Except Err ℝ :=
    match ro with
    | some r => .ok (f r)
    | none => .error .typeError
  let onlyVo (f : ℝ → ℝ) : Except Err ℝ :=
    match vo with
    | some v => .ok (f v)
    | none => .error .typeError
  match q with
  | .time => both (time_in_Gyr k)
  | .position => onlyRo id
  | .position_kpc => .ok 1
  | .velocity => onlyVo id
  | .velocity2 => onlyVo (· ^ 2)
  | .velocity_kms => .ok 1
  | .frequency => if wantKmskpc && !asQuantity then both freq_in_kmskpc else both (freq_in_Gyr k)
  | .frequency_kmskpc => both freq_in_kmskpc
  | .action => both fun v r => r * v
  | .energy => onlyVo (· ^ 2)
  | .angle => .ok 1
  | .angle_deg => .ok 1
  | .propermotion_masyr => .ok 1
  | .force => both (force_in_kmsMyr k)
  | .density => both (dens_in_msolpc3 k)
  | .numberdensity => onlyRo fun r => 1 / r ^ 3
  | .velocity2surfacedensity => both fun v r => surfdens_in_msolpc2 k v r * v ^ 2
  | .surfacedensity => both (surfdens_in_msolpc2 k)
  | .numbersurfacedensity => onlyRo fun r => 1 / r ^ 2
  | .surfacedensitydistance => both fun v r => surfdens_in_msolpc2 k v r * r * 1000
  | .mass => both (mass_in_msol k)
  | .forcederivative => both fun v r => freq_in_Gyr k v r ^ 2
  | .phasespacedensity => both fun v r => 1 / v ^ 3 / r ^ 3
  | .phasespacedensity2d => both fun v r => 1 / v ^ 2 / r ^ 2
  | .phasespacedensityvelocity => both fun v r => 1 / v ^ 2 / r ^ 3
  | .phasespacedensityvelocity2 => both fun v r => 1 / v / r ^ 3
  | .massphasespacedensity => both fun v r => mass_in_msol k v r / v ^ 3 / r ^ 3
  | .massenergydensity => both fun v r => mass_in_msol k v r / v ^ 2
  | .dimensionless => .ok 1

/-- The unit of the output as an astropy quantity (conversion.py 893-1011); for proper motions, an angle divided by a
time, only that the factor is one is used. -/
noncomputable def Kind.unit (k : Consts) : Kind → Qty
  | .time => Gyr k
  | .position | .position_kpc => kpc
  | .velocity | .velocity_kms => kms
  | .velocity2 | .energy => kms2
  | .frequency => perGyr k
  | .frequency_kmskpc => kmskpc
  | .action => kpckms
  | .angle => rad
  | .angle_deg => deg
  | .propermotion_masyr => ⟨Real.pi / 180 / 3600 / 1000 / (k.kms / 10 ^ 9), -1, 1, 0, 1⟩
  | .force => kmsMyr k
  | .density => msunpc3
  | .numberdensity => perkpc3
  | .velocity2surfacedensity => ⟨1000 ^ 2, -2, 2, 1, 0⟩
  | .surfacedensity => msunpc2
  | .numbersurfacedensity => ⟨1, -2, 0, 0, 0⟩
  | .surfacedensitydistance => msunpc
  | .mass => msun
  | .forcederivative => perGyr2 k
  | .phasespacedensity => ⟨1, -3, -3, 0, 0⟩
  | .phasespacedensity2d => ⟨1, -2, -2, 0, 0⟩
  | .phasespacedensityvelocity => ⟨1, -3, -2, 0, 0⟩
  | .phasespacedensityvelocity2 => ⟨1, -3, -1, 0, 0⟩
  | .massphasespacedensity => ⟨1, -3, -3, 1, 0⟩
  | .massenergydensity => ⟨1, 0, -2, 1, 0⟩
  | .dimensionless => ⟨1, 0, 0, 0, 0⟩

/-- What the decorator looks at in the object: `none` if the attribute does not exist. -/
structure Obj where
  ro : Option ℝ
  roSet : Option Bool
  vo : Option ℝ
  voSet : Option Bool

/-- The keyword arguments that matter (`none`: not given).  `ro` and `vo` are numbers: quantities given for them are
converted to kpc and km/s first (conversion.py 856-857, 861-862), and `None` counts as not given. -/
structure Kwargs where
  use_physical : Option Bool := none
  log : Option Bool := none
  ro : Option ℝ := none
  vo : Option ℝ := none
  quantity : Option Bool := none
  kmskpc : Option Bool := none

/-- `physical_output` (conversion.py 844-871): whether to convert, and the scales; an object without the attribute
`_ro` (or `_vo`) raises an `AttributeError` when it is needed. -/
def physical_output (obj : Obj) (kw : Kwargs) (q : Kind) : Except Err (Bool × Option ℝ × Option ℝ) :=
  let use := (kw.use_physical.getD true && !kw.log.getD false) || q.always
  let ro : Except Err (Option ℝ) :=
    if kw.ro.isNone && (q.always || obj.roSet.getD false) then
      match obj.ro with
      | none => .error .attribute
      | some r => .ok (some r)
    else .ok kw.ro
  let vo : Except Err (Option ℝ) :=
    if kw.vo.isNone && (q.always || obj.voSet.getD false) then
      match obj.vo with
      | none => .error .attribute
      | some v => .ok (some v)
    else .ok kw.vo
  do
    let ro ← ro
    let vo ← vo
    .ok (use && !(q.voNecessary && vo.isNone) && !(q.roNecessary && ro.isNone), ro, vo)

/-- What a decorated method returns. -/
inductive Output where
  /-- A number in internal units; the flag says whether a warning is printed. -/
  | internal (x : ℝ) (warned : Bool)
  /-- A number in physical units. -/
  | physical (x : ℝ)
  /-- A quantity: the number and its unit. -/
  | quantity (x : ℝ) (u : Qty)
  /-- `None`. -/
  | none

/-- The decorator `physical_conversion(quantity)` (conversion.py 874-1033) around a method returning `out` (`none` for
`None`).  `apyUnits` is the configured `_APY_UNITS`.  Simplification: outputs are single numbers. -/
noncomputable def physical_conversion (k : Consts) (apyUnits : Bool) (q : Kind) (obj : Obj) (kw : Kwargs)
    (out : Option ℝ) : Except Err Output := do
  let (use, ro, vo) ← physical_output obj kw q
  let asQuantity := kw.quantity.getD apyUnits
  if use then
    let fac ← q.factor k vo ro asQuantity (kw.kmskpc.getD false)
    match out with
    | Option.none => .ok .none
    | some x => if asQuantity then .ok (.quantity (x * fac) (q.unit k)) else .ok (.physical (x * fac))
  else
    match out with
    | Option.none => .ok .none
    | some x => .ok (.internal x (kw.use_physical.getD false))

/-! ### Inputs of the methods of potentials -/

/-- The arguments of a method of a potential: positional ones, and by keyword. -/
structure Args where
  positional : List Input
  phi : Option Input := none
  t : Option Input := none
  R : Option Input := none
  z : Option Input := none
  v : Option Input := none
  M : Option Input := none
  ro : Option ℝ := none
  vo : Option ℝ := none

/-- The arguments after the decorator: all numbers. -/
structure Numbers where
  positional : List ℝ
  phi : Option ℝ
  t : Option ℝ
  R : Option ℝ
  z : Option ℝ
  v : Option ℝ
  M : Option ℝ

/-- An argument that may not be given. -/
def optInput (p : Input → Except Err ℝ) : Option Input → Except Err (Option ℝ)
  | none => .ok none
  | some x => (p x).map some

/-- The argument `v` (conversion.py 1104-1105); `bound` says whether the variable `vo` is bound. -/
noncomputable def inputV (vo : ℝ) (bound : Bool) : Input → Except Err ℝ
  | .number y => .ok y
  | .quantity y =>
    match y.to kms with
    | .error e => .error e
    | .ok w => if bound then .ok (w / vo) else .error .unbound

/-- The argument `M` (conversion.py 1107-1115). -/
noncomputable def inputM (k : Consts) (ro vo : ℝ) : Input → Except Err ℝ
  | .number y => .ok y
  | .quantity y => orElse ((y.to msun).map (· / mass_in_msol k vo ro))
      ((y.to pckms2).map (· / mass_in_msol k vo ro / k.G))

/-- `potential_physical_input` (conversion.py 1060-1130) for a potential with scales `potRo` and `potVo`.  The variable `vo` is
bound only when `t` or `M` is given by keyword (1074).  Simplification: `v` is one number here (it is a list of three),
the arguments `x`, `dz`, `dR` and `zmax` are treated like `z`. -/
noncomputable def potential_physical_input (k : Consts) (potRo potVo : ℝ) (a : Args) : Except Err Numbers := do
  let ro := a.ro.getD potRo
  let vo := a.vo.getD potVo
  let positional ← a.positional.mapM (parse kpc ro)
  let phi ← optInput (parse rad 1) a.phi
  let t ← optInput (parse (Gyr k) (time_in_Gyr k vo ro)) a.t
  let R ← optInput (parse kpc ro) a.R
  let z ← optInput (parse kpc ro) a.z
  let v ← optInput (inputV vo (a.t.isSome || a.M.isSome)) a.v
  let M ← optInput (inputM k ro vo) a.M
  .ok ⟨positional, phi, t, R, z, v, M⟩

/-! ### Inputs and outputs of action-angle methods -/

/-- The decorated methods of `actionAngle` (actionAngle.py 175-318). -/
inductive AAMethod where
  | call | actionsFreqs | actionsFreqsAngles | EccZmaxRperiRap

/-- What such a method returns: a number, or a tuple or array.  Simplification: the entries are numbers. -/
inductive AAOut where
  | scalar (x : ℝ)
  | seq (xs : List ℝ)

/-- The factors (conversion.py 1161-1200) for an output of length `n`. -/
noncomputable def aaFactors (k : Consts) (m : AAMethod) (ro vo : ℝ) (n : ℕ) : List ℝ :=
  match m with
  | .call => [ro * vo, ro * vo, ro * vo]
  | .actionsFreqs =>
    (if n < 4 then [ro * vo] else [ro * vo, ro * vo, ro * vo])
      ++ (if n < 4 then [freq_in_Gyr k vo ro] else [freq_in_Gyr k vo ro, freq_in_Gyr k vo ro, freq_in_Gyr k vo ro])
  | .actionsFreqsAngles =>
    (if n < 4 then [ro * vo] else [ro * vo, ro * vo, ro * vo])
      ++ (if n < 4 then [freq_in_Gyr k vo ro] else [freq_in_Gyr k vo ro, freq_in_Gyr k vo ro, freq_in_Gyr k vo ro])
      ++ (if n < 4 then [1] else [1, 1, 1])
  | .EccZmaxRperiRap => [1, ro, ro, ro]

/-- `out[ii] * fac[ii]` for all `ii` (conversion.py 1204-1207, 1213-1214): raises when there are too few factors. -/
noncomputable def scaleAll : List ℝ → List ℝ → Except Err (List ℝ)
  | [], _ => .ok []
  | _ :: _, [] => .error .index
  | x :: xs, f :: fs => (scaleAll xs fs).map (x * f :: ·)

/-- `physical_conversion_actionAngle` (conversion.py 1133-1223) around a method returning `out`.  `len` of a number raises a
`TypeError`, which is caught only in the loop (1208, 1215).  Simplification: the units that are attached with
`_APY_UNITS` are not modelled. -/
noncomputable def physical_conversion_actionAngle (k : Consts) (m : AAMethod) (obj : Obj)
    (kw : Kwargs) (out : AAOut) : Except Err AAOut :=
  let ro := if kw.ro.isNone && obj.roSet.getD false then obj.ro else kw.ro
  let vo := if kw.vo.isNone && obj.voSet.getD false then obj.vo else kw.vo
  if kw.use_physical.getD true then
    match ro, vo with
    | some ro, some vo =>
      match out with
      | .scalar x =>
        match m with
        | .call => .ok (.scalar (x * (ro * vo)))
        | .EccZmaxRperiRap => .ok (.scalar (x * 1))
        | _ => .error .typeError
      | .seq xs => (scaleAll xs (aaFactors k m ro vo xs.length)).map .seq
    | _, _ => .ok out
  else .ok out

/-- `actionAngle_physical_input` (conversion.py 1226-1266) for one argument. -/
noncomputable def aaInput (ro vo : ℝ) : Input → Except Err ℝ
  | .number x => .ok x
  | .quantity x => orElse ((x.to kpc).map (· / ro)) (orElse ((x.to kms).map (· / vo)) (x.to rad))

/-- `actionAngleInverse_physical_input` (conversion.py 1353-1386) for one argument. -/
noncomputable def aaInverseInput (ro vo : ℝ) : Input → Except Err ℝ
  | .number x => .ok x
  | .quantity x => orElse ((x.to kpckms).map fun y => y / ro / vo) (x.to rad)

/-- The decorated methods of `actionAngleInverse` (actionAngleInverse.py 18-124). -/
inductive AAInverseMethod where
  | call | xvFreqs | Freqs

/-- The factors (conversion.py 1298-1327). -/
noncomputable def aaInverseFactors (k : Consts) (m : AAInverseMethod) (ro vo : ℝ) (n : ℕ) : List ℝ :=
  match m with
  | .call => [ro, vo, vo, ro, vo, 1]
  | .xvFreqs => (if n < 4 then [ro, vo] else [ro, vo, vo, ro, vo, 1])
      ++ [freq_in_Gyr k vo ro, freq_in_Gyr k vo ro, freq_in_Gyr k vo ro]
  | .Freqs => [freq_in_Gyr k vo ro, freq_in_Gyr k vo ro, freq_in_Gyr k vo ro]

/-- `physical_conversion_actionAngleInverse` (conversion.py 1269-1350). -/
noncomputable def physical_conversion_actionAngleInverse (k : Consts) (m : AAInverseMethod) (obj : Obj)
    (kw : Kwargs) (out : AAOut) : Except Err AAOut :=
  let ro := if kw.ro.isNone && obj.roSet.getD false then obj.ro else kw.ro
  let vo := if kw.vo.isNone && obj.voSet.getD false then obj.vo else kw.vo
  if kw.use_physical.getD true then
    match ro, vo with
    | some ro, some vo =>
      match out with
      | .scalar x =>
        match m with
        | .call => .ok (.scalar (x * ro))
        | .xvFreqs => .error .typeError
        | .Freqs => .ok (.scalar (x * freq_in_Gyr k vo ro))
      | .seq xs => (scaleAll xs (aaInverseFactors k m ro vo xs.length)).map .seq
    | _, _ => .ok out
  else .ok out

end Verif.Conversion
