import Verif.Model.Pot.Ops
import Verif.Model.Pot.SCFCoef
import Mathlib.Analysis.SpecialFunctions.Integrals.Basic
import Mathlib.Data.Sign.Basic
import Mathlib.Algebra.Order.Floor.Defs

set_option autoImplicit false

/-!
# Model of the Kuijken & Dubinski disk expansion (`DiskSCFPotential`, `DiskMultipoleExpansionPotential`)

The potential is an expansion object `me` plus, for each pair `(Sigma_i, h_i)`, the closed form
`4 pi a s(r) H(z)`.  Python: `galpy/potential/KuijkenDubinskiDiskExpansionPotential.py`; C:
`galpy/potential/potential_c_ext/DiskSCFPotential.c`; argument parser: `_parse_disk_approx_pairs` in
`galpy/orbit/integratePlanarOrbit.py`.  Real numbers replace floats; `numpy` broadcasting over arrays of positions is not
modelled (one position per call).
-/

noncomputable section
namespace Verif.DiskExp
open Real

/-- One approximating pair after parsing: amplitude, surface density and its two derivatives, vertical profile `h`, its second
antiderivative `H` and first antiderivative `dH`.  KuijkenDubinskiDiskExpansionPotential.py:119-123, 186-189 (the parallel lists
`_Sigma_amp`, `_Sigma`, `_dSigmadR`, `_d2SigmadR2`, `_hz`, `_Hz`, `_dHzdz`, always consumed through `zip`). -/
structure Pair where
  a : ℝ
  s : ℝ → ℝ
  ds : ℝ → ℝ
  d2s : ℝ → ℝ
  h : ℝ → ℝ
  H : ℝ → ℝ
  dH : ℝ → ℝ

/-! ### Parsing of the dictionaries -/

/-- A surface-density dictionary: absent keys are `none`. -/
structure SigDict where
  type : Option String
  h : Option ℝ
  amp : Option ℝ
  Rhole : Option ℝ

/-- A vertical-profile dictionary. -/
structure HzDict where
  type : Option String
  h : Option ℝ

inductive Err
  | unbound
  | value
  | index

/-- `_parse_Sigma_dict_indiv`, KuijkenDubinskiDiskExpansionPotential.py:145-165: the tuple (amplitude, s, s', s''). An unknown type
leaves the local names unbound (UnboundLocalError). -/
def parseSigma (d : SigDict) : Except Err (ℝ × (ℝ → ℝ) × (ℝ → ℝ) × (ℝ → ℝ)) :=
  let stype := d.type.getD "exp"
  if stype = "exp" ∧ ¬ d.Rhole.isSome then
    let rd := d.h.getD (1 / 3)
    .ok (d.amp.getD 1, fun R => exp (-R / rd), fun R => -exp (-R / rd) / rd, fun R => exp (-R / rd) / rd ^ 2)
  else if stype = "expwhole" ∨ (stype = "exp" ∧ d.Rhole.isSome) then
    let rd := d.h.getD (1 / 3)
    let rm := d.Rhole.getD (1 / 2)
    .ok (d.amp.getD 1, fun R => exp (-rm / R - R / rd), fun R => (rm / R ^ 2 - 1 / rd) * exp (-rm / R - R / rd),
      fun R => ((rm / R ^ 2 - 1 / rd) ^ 2 - 2 * rm / R ^ 3) * exp (-rm / R - R / rd))
  else .error .unbound

/-- `_parse_hz_dict_indiv`, KuijkenDubinskiDiskExpansionPotential.py:209-244: (h, H, dH). `logsumexp` of a list is the logarithm of
the sum of exponentials. -/
def parseHz (d : HzDict) : Except Err ((ℝ → ℝ) × (ℝ → ℝ) × (ℝ → ℝ)) :=
  let htype := d.type.getD "exp"
  if htype = "exp" then
    let zd := d.h.getD 0.0375
    .ok (fun z => 1 / 2 / zd * exp (-|z| / zd), fun z => (exp (-|z| / zd) - 1 + |z| / zd) * zd / 2,
      fun z => 1 / 2 * SignType.sign z * (1 - exp (-|z| / zd)))
  else if htype = "sech2" then
    let zd := d.h.getD 0.0375
    .ok (fun z => exp (-log (exp (z / zd) + exp (-z / zd) + exp (log 2))) / zd,
      fun z => zd * (log (exp (z / 2 / zd) + exp (-z / 2 / zd)) - log 2),
      fun z => tanh (z / 2 / zd) / 2)
  else .error .unbound

/-- `_Sigma_dict` and `_hz_dict`: the dictionaries as stored (the vertical ones after repetition),
KuijkenDubinskiDiskExpansionPotential.py:125, 181-182, 191. -/
def storedHz (Sig : List SigDict) (hz : List HzDict) : List HzDict :=
  if hz.length = 1 ∧ Sig.length > 1 then List.replicate Sig.length (hz.headD ⟨none, none⟩) else hz

/-- `_parse_Sigma` followed by `_parse_hz` for lists of dictionaries (a single dictionary is the list of one),
KuijkenDubinskiDiskExpansionPotential.py:108-143, 167-207.  `Sigma[0]` of an empty list raises IndexError. -/
def parsePairs (Sig : List SigDict) (hz : List HzDict) : Except Err (List Pair) := do
  if Sig = [] then throw .index
  let ss ← Sig.mapM parseSigma
  if hz.length ≠ Sig.length ∧ hz.length ≠ 1 then throw .value
  let hs ← (storedHz Sig hz).mapM parseHz
  return List.zipWith (fun s h => ⟨s.1, s.2.1, s.2.2.1, s.2.2.2, h.1, h.2.1, h.2.2⟩) ss hs

/-! ### The Python methods -/

/-- KuijkenDubinskiDiskExpansionPotential.py:246-251. -/
def evaluate (me : Pot) (ps : List Pair) (R z φ t : ℝ) : ℝ :=
  let r := √(R ^ 2 + z ^ 2)
  ps.foldl (fun out p => out + 4 * π * p.a * p.s r * p.H z) (me.val R z φ t)

/-- KuijkenDubinskiDiskExpansionPotential.py:253-258. -/
def Rforce (me : Pot) (ps : List Pair) (R z φ t : ℝ) : ℝ :=
  let r := √(R ^ 2 + z ^ 2)
  ps.foldl (fun out p => out - 4 * π * p.a * p.ds r * p.H z * R / r) (me.Rforce R z φ t)

/-- KuijkenDubinskiDiskExpansionPotential.py:260-267. -/
def zforce (me : Pot) (ps : List Pair) (R z φ t : ℝ) : ℝ :=
  let r := √(R ^ 2 + z ^ 2)
  ps.foldl (fun out p => out - 4 * π * p.a * (p.ds r * p.H z * z / r + p.s r * p.dH z)) (me.zforce R z φ t)

/-- KuijkenDubinskiDiskExpansionPotential.py:269-270. -/
def phitorque (me : Pot) (R z φ t : ℝ) : ℝ := me.phitorque R z φ t

/-- KuijkenDubinskiDiskExpansionPotential.py:272-286. -/
def R2deriv (me : Pot) (ps : List Pair) (R z φ t : ℝ) : ℝ :=
  let r := √(R ^ 2 + z ^ 2)
  ps.foldl (fun out p => out + 4 * π * p.a * p.H z / r ^ 2 * (p.d2s r * R ^ 2 + z ^ 2 / r * p.ds r)) (me.R2deriv R z φ t)

/-- KuijkenDubinskiDiskExpansionPotential.py:288-310. -/
def z2deriv (me : Pot) (ps : List Pair) (R z φ t : ℝ) : ℝ :=
  let r := √(R ^ 2 + z ^ 2)
  ps.foldl (fun out p => out + 4 * π * p.a * (p.H z / r ^ 2 * (p.d2s r * z ^ 2 + p.ds r * R ^ 2 / r)
    + 2 * p.ds r * p.dH z * z / r + p.s r * p.h z)) (me.z2deriv R z φ t)

/-- KuijkenDubinskiDiskExpansionPotential.py:312-324. -/
def Rzderiv (me : Pot) (ps : List Pair) (R z φ t : ℝ) : ℝ :=
  let r := √(R ^ 2 + z ^ 2)
  ps.foldl (fun out p => out + 4 * π * p.a * (p.H z * R * z / r ^ 2 * (p.d2s r - p.ds r / r) + p.ds r * p.dH z * R / r))
    (me.Rzderiv R z φ t)

/-- KuijkenDubinskiDiskExpansionPotential.py:326-327. -/
def phi2deriv (me : Pot) (R z φ t : ℝ) : ℝ := me.phi2deriv R z φ t

/-- The summand of the density that comes from one pair, KuijkenDubinskiDiskExpansionPotential.py:341-343 and 374. -/
def Pair.rho (p : Pair) (r z : ℝ) : ℝ := p.a * (p.s r * p.h z + p.d2s r * p.H z + 2 / r * p.ds r * (p.H z + z * p.dH z))

/-- KuijkenDubinskiDiskExpansionPotential.py:329-344. -/
def dens (me : Pot) (ps : List Pair) (R z φ t : ℝ) : ℝ :=
  let r := √(R ^ 2 + z ^ 2)
  ps.foldl (fun out p => out + p.rho r z) (me.dens R z φ t)

/-- `phiME_dens`, KuijkenDubinskiDiskExpansionPotential.py:367-375: the density that the expansion object is built for. -/
def phiME_dens (ps : List Pair) (inputdens : ℝ → ℝ → ℝ → ℝ) (R z φ : ℝ) : ℝ :=
  let r := √(R ^ 2 + z ^ 2)
  ps.foldl (fun out p => out - p.rho r z) (inputdens R z φ)

/-- The integrand of `_mass`, KuijkenDubinskiDiskExpansionPotential.py:352-362. -/
def massIntegrand (ps : List Pair) (r θ : ℝ) : ℝ :=
  let tz := r * cos θ
  let tR := r * sin θ
  ps.foldl (fun out p => out + p.a * p.ds r * p.H tz * tR ^ 2
    + p.a * (p.ds r * p.H tz * tz / r + p.s r * p.dH tz) * tz * r) 0 * sin θ

/-- `_mass` for `z=None`, KuijkenDubinskiDiskExpansionPotential.py:346-364; `integrate.quad` is taken to be the exact integral. -/
def mass (meMass : ℝ → ℝ) (ps : List Pair) (R : ℝ) : ℝ :=
  meMass R + 2 * π * ∫ θ in (0 : ℝ)..π, massIntegrand ps R θ

/-- The object. There is no `_Rphideriv` and no `_phizderiv`: for an axisymmetric object the public methods return zero
(Potential.py), for a non-axisymmetric one they raise; the record holds the zeros of the axisymmetric case. -/
def raw (me : Pot) (ps : List Pair) : Pot where
  val := evaluate me ps
  Rforce := Rforce me ps
  zforce := zforce me ps
  phitorque := phitorque me
  R2deriv := R2deriv me ps
  z2deriv := z2deriv me ps
  Rzderiv := Rzderiv me ps
  phi2deriv := phi2deriv me
  Rphideriv := fun _ _ _ _ => 0
  phizderiv := fun _ _ _ _ => 0
  dens := dens me ps

/-- `DiskSCFPotential` for an axisymmetric density (a function of two arguments): the expansion object is
`SCFPotential.from_density` of the residual, of shape `(N, L, 1)` and amplitude one.  DiskSCFPotential.py:102-131,
KuijkenDubinskiDiskExpansionPotential.py:50-71.  `normalize` is not modelled here. -/
def diskSCF (leg : ℕ → SCF.Rule) (amp : ℝ) (dens : ℝ → ℝ → ℝ) (ps : List Pair) (N L : ℕ) (a : ℝ) (ro co : Option ℕ) : Pot :=
  let me := (SCF.raw ⟨a, N, L, 1, false,
    fun n l _ => SCF.coefAxi leg (fun R z => phiME_dens ps (fun R z _ => dens R z) R z 0) N L a ro co n l,
    fun _ _ _ => 0, fun _ _ _ _ => 0, fun _ _ _ _ => 0⟩).scale (1 / 2);
  (raw me ps).scale amp

/-- `DiskSCFPotential` for a density of three arguments: no symmetry is assumed, the coefficient arrays have shape `(N, L, L)`. Same lines. -/
def diskSCF3 (leg : ℕ → SCF.Rule) (amp : ℝ) (dens : ℝ → ℝ → ℝ → ℝ) (ps : List Pair) (N L : ℕ) (a : ℝ) (ro co : Option ℕ) : Pot :=
  let me := (SCF.raw ⟨a, N, L, L, false,
    SCF.coefFull leg cos (phiME_dens ps dens) N L a ro co, SCF.coefFull leg sin (phiME_dens ps dens) N L a ro co,
    fun _ _ _ _ => 0, fun _ _ _ _ => 0⟩).scale (1 / 2);
  (raw me ps).scale amp

/-! ### C -/

/-- `(int) x` for the non-negative values used here. -/
def toInt (x : ℝ) : ℕ := ⌊x⌋₊

/-- `*(args+i)`; reading past the end is given the value 0. -/
def arg (args : List ℝ) (i : ℕ) : ℝ := args.getD i 0

/-- DiskSCFPotential.c:36-45. -/
def cSigma (R : ℝ) (A : List ℝ) : ℝ :=
  match toInt (arg A 0) with
  | 0 => arg A 1 * exp (-R / arg A 2)
  | 1 => arg A 1 * exp (-arg A 3 / R - R / arg A 2)
  | _ => -1

/-- DiskSCFPotential.c:46-56. -/
def cdSigma (R : ℝ) (A : List ℝ) : ℝ :=
  match toInt (arg A 0) with
  | 0 => -arg A 1 * exp (-R / arg A 2) / arg A 2
  | 1 => arg A 1 * (arg A 3 / R / R - 1 / arg A 2) * exp (-arg A 3 / R - R / arg A 2)
  | _ => -1

/-- DiskSCFPotential.c:57-70. -/
def cd2Sigma (R : ℝ) (A : List ℝ) : ℝ :=
  match toInt (arg A 0) with
  | 0 => arg A 1 * exp (-R / arg A 2) / arg A 2 / arg A 2
  | 1 => arg A 1 * ((arg A 3 / R / R - 1 / arg A 2) ^ 2 - 2 * arg A 3 / R / R / R) * exp (-arg A 3 / R - R / arg A 2)
  | _ => -1

/-- DiskSCFPotential.c:71-83. -/
def chz (z : ℝ) (A : List ℝ) : ℝ :=
  match toInt (arg A 0) with
  | 0 => 0.5 * exp (-|z| / arg A 1) / arg A 1
  | 1 => 0.25 * (cosh (0.5 * z / arg A 1) ^ 2)⁻¹ / arg A 1
  | _ => -1

/-- DiskSCFPotential.c:84-96. -/
def cHz (z : ℝ) (A : List ℝ) : ℝ :=
  match toInt (arg A 0) with
  | 0 => 0.5 * (exp (-|z| / arg A 1) - 1 + |z| / arg A 1) * arg A 1
  | 1 => arg A 1 * (log (1 + exp (-|z| / arg A 1)) + 0.5 * |z| / arg A 1 - log 2)
  | _ => -1

/-- `copysign(x, z)`; a zero `z` is taken to be the positive zero (with `x` then zero the sign does not matter). -/
def copysign (x z : ℝ) : ℝ := if z < 0 then -|x| else |x|

/-- DiskSCFPotential.c:97-108. -/
def cdHz (z : ℝ) (A : List ℝ) : ℝ :=
  match toInt (arg A 0) with
  | 0 => 0.5 * copysign (1 - exp (-|z| / arg A 1)) z
  | 1 => 0.5 * tanh (0.5 * z / arg A 1)
  | _ => -1

/-- `args+1`, DiskSCFPotential.c:115. -/
def sigArgs (args : List ℝ) : List ℝ := args.drop 1
/-- `args+1+nsigma_args`, DiskSCFPotential.c:114, 116. -/
def hzArgs (args : List ℝ) : List ℝ := args.drop (1 + toInt (arg args 0))

/-- DiskSCFPotential.c:109-120. -/
def cEval (args : List ℝ) (R Z : ℝ) : ℝ :=
  let r := √(R * R + Z * Z)
  cSigma r (sigArgs args) * cHz Z (hzArgs args)
/-- DiskSCFPotential.c:121-132. -/
def cRforce (args : List ℝ) (R Z : ℝ) : ℝ :=
  let r := √(R * R + Z * Z);
  -cdSigma r (sigArgs args) * cHz Z (hzArgs args) * R / r
/-- DiskSCFPotential.c:133-144. -/
def cPlanarRforce (args : List ℝ) (R : ℝ) : ℝ := -cdSigma R (sigArgs args) * cHz 0 (hzArgs args)
/-- DiskSCFPotential.c:145-157. -/
def cPlanarR2deriv (args : List ℝ) (R : ℝ) : ℝ := cd2Sigma R (sigArgs args) * cHz 0 (hzArgs args)
/-- DiskSCFPotential.c:158-170. -/
def czforce (args : List ℝ) (R Z : ℝ) : ℝ :=
  let r := √(R * R + Z * Z);
  -cdSigma r (sigArgs args) * cHz Z (hzArgs args) * Z / r - cSigma r (sigArgs args) * cdHz Z (hzArgs args)
/-- DiskSCFPotential.c:175-187. -/
def cR2deriv (args : List ℝ) (R Z : ℝ) : ℝ :=
  let r := √(R * R + Z * Z)
  let r2 := r * r
  let sp := cdSigma r (sigArgs args)
  let spp := cd2Sigma r (sigArgs args)
  cHz Z (hzArgs args) * (spp * R * R / r2 + sp * Z * Z / r2 / r)
/-- DiskSCFPotential.c:188-202. -/
def cz2deriv (args : List ℝ) (R Z : ℝ) : ℝ :=
  let r := √(R * R + Z * Z)
  let r2 := r * r
  let sp := cdSigma r (sigArgs args)
  let spp := cd2Sigma r (sigArgs args)
  cHz Z (hzArgs args) * (spp * Z * Z / r2 + sp * R * R / r2 / r) + 2 * sp * Z / r * cdHz Z (hzArgs args)
    + cSigma r (sigArgs args) * chz Z (hzArgs args)
/-- DiskSCFPotential.c:203-216. -/
def cRzderiv (args : List ℝ) (R Z : ℝ) : ℝ :=
  let r := √(R * R + Z * Z)
  let r2 := r * r
  let sp := cdSigma r (sigArgs args)
  let spp := cd2Sigma r (sigArgs args)
  cHz Z (hzArgs args) * R * Z * (spp / r2 - sp / r2 / r) + sp * R / r * cdHz Z (hzArgs args)
/-- DiskSCFPotential.c:217-231 (`M_1_PI` is `1/pi`). -/
def cDens (args : List ℝ) (R Z : ℝ) : ℝ :=
  let r := √(R * R + Z * Z)
  1 / π / 4 * (cSigma r (sigArgs args) * chz Z (hzArgs args) + cd2Sigma r (sigArgs args) * cHz Z (hzArgs args)
    + 2 / r * cdSigma r (sigArgs args) * (cHz Z (hzArgs args) + Z * cdHz Z (hzArgs args)))

/-- The numbers appended for one pair by `_parse_disk_approx_pairs` (`per_pair_suffix` is `None`),
galpy/orbit/integratePlanarOrbit.py:783-809. -/
def pairArgs (extra : ℝ) (d : SigDict) (e : HzDict) : List ℝ :=
  let stype := d.type.getD "exp"
  (if stype = "exp" ∧ ¬ d.Rhole.isSome then [3, 0, 4 * π * d.amp.getD 1 * extra, d.h.getD (1 / 3)]
    else if stype = "expwhole" ∨ (stype = "exp" ∧ d.Rhole.isSome) then
      [4, 1, 4 * π * d.amp.getD 1 * extra, d.h.getD (1 / 3), d.Rhole.getD (1 / 2)]
    else [])
  ++ (let htype := e.type.getD "exp"
    if htype = "exp" then [0, e.h.getD 0.0375] else if htype = "sech2" then [1, e.h.getD 0.0375] else [])

/-- `_parse_disk_approx_pairs`, galpy/orbit/integratePlanarOrbit.py:778-812: the number of type-26 entries and the flat list of arguments. -/
def parseC (extra : ℝ) (Sig : List SigDict) (hz : List HzDict) : ℕ × List ℝ :=
  let b := List.zipWith (pairArgs extra) Sig (storedHz Sig hz)
  (b.length, b.flatten)

/-- C reading `n` potentials of type 26 from the flat list: each takes `nargs = (int) **pot_args + 3` numbers,
galpy/orbit/orbit_c_ext/integrateFullOrbit.c:520-534 and the common copying loop. -/
def readC : ℕ → List ℝ → List (List ℝ)
  | 0, _ => []
  | n + 1, l =>
    let nargs := toInt (arg l 0) + 3
    l.take nargs :: readC n (l.drop nargs)

/-- The sum over the type-26 entries that the C aggregators form (Potential.c / galpy_potentials.c `calcRforce` and others). -/
def cSum (f : List ℝ → ℝ) (blocks : List (List ℝ)) : ℝ := blocks.foldl (fun acc b => acc + f b) 0

end Verif.DiskExp
