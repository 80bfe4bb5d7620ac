import Verif.Model.Coords
import Verif.Util.Legendre
import Verif.Spec.Pot
import Mathlib.Analysis.SpecialFunctions.Gamma.Basic
import Mathlib.Data.Real.Sign

set_option autoImplicit false

/-!
# SCFPotential

Transcription of `galpy/potential/SCFPotential.py` (evaluation), of `galpy/potential/SphericalHarmonicPotentialMixin.py` and of
`galpy/util/special.py`, for scalar arguments and finite radii.  Arrays indexed by `n`, `l`, `m` are functions of natural
numbers; only entries inside the shape are ever summed.  scipy's `assoc_legendre_p_all` (`lpmn` for old versions) is outside:
its values, first and second derivatives are taken to be those of the associated Legendre functions `alp`.  scipy's
`CubicSpline` in time is outside: for a time-dependent potential the coefficients are any functions of time.  Methods are
without the factor `_amp`, which the constructor sets to half of the argument (line 116).
-/

noncomputable section
namespace Verif.SCF
open Real Finset

/-! ### Radial functions -/

/-- The body of the loop over `n` in `_C`, SCFPotential.py:1249-1259, for one value `a` of `alpha(l)`. -/
def Cstep (a xi : ℝ) (N : ℕ) (CC : ℕ → ℝ) (n : ℕ) : ℕ → ℝ :=
  if n = 0 then Function.update CC 0 1
  else
    let CC := if n = 1 then Function.update CC 1 (2 * a * xi) else CC;
    if n + 1 ≠ N then
      Function.update CC (n + 1) ((2 * (n + a) * xi * CC n - (n + 2 * a - 1) * CC (n - 1)) / (n + 1))
    else CC

/-- `_C`, SCFPotential.py:1211-1263, one column; entry `n` of an array of length `N` filled with zeros at first. -/
def C (a xi : ℝ) (N : ℕ) : ℕ → ℝ := (List.range N).foldl (Cstep a xi N) fun _ => 0

/-- `_RToxi` at a finite radius, SCFPotential.py:1201-1208. -/
def RToxi (r a : ℝ) : ℝ := (r / a - 1) / (r / a + 1)

/-- `_xiToR`, SCFPotential.py:1197-1198. -/
def xiToR (xi a : ℝ) : ℝ := a * ((1 + xi) / (1 - xi))

/-- `_C(xi, N, L)` with the default `alpha`, SCFPotential.py:1211. -/
def CC (xi : ℝ) (N n l : ℕ) : ℝ := C (2 * l + 3 / 2) xi N n

/-- `numpy.roll(CC, 1, axis=0)` of an array of `N` rows, SCFPotential.py:1269. -/
def roll (N : ℕ) (f : ℕ → ℝ) (n : ℕ) : ℝ := if n = 0 then f (N - 1) else f (n - 1)

/-- `_dC`, SCFPotential.py:1266-1272. -/
def dC (xi : ℝ) (N n l : ℕ) : ℝ :=
  let c := roll (N + 1) (C (2 * l + 5 / 2) xi (N + 1));
  let c := Function.update c 0 0;
  c n * (2 * (2 * l + 3 / 2))

/-- `_d2C`, SCFPotential.py:1275-1289; rolling by two rows is rolling twice by one. -/
def d2C (xi : ℝ) (N n l : ℕ) : ℝ :=
  let a : ℝ := 2 * l + 3 / 2;
  let c := roll (N + 2) (roll (N + 2) (C (2 * l + 7 / 2) xi (N + 2)));
  let c := Function.update c 0 0;
  let c := if 1 < N then Function.update c 1 0 else c;
  c n * (4 * a * (a + 1))

/-- `_rhoTilde_basis`, SCFPotential.py:1150-1170. -/
def rhoTilde (a : ℝ) (N : ℕ) (r : ℝ) (n l : ℕ) : ℝ :=
  let K : ℝ := 0.5 * n * (n + 4 * l + 3) + (l + 1) * (2 * l + 1);
  K * (a * r) ^ l / ((r / a) * (a + r) ^ (2 * (l : ℝ) + 3)) * CC (RToxi r a) N n l * π ^ (-0.5 : ℝ)

/-- `_phiTilde_basis`, SCFPotential.py:1173-1194. -/
def phiTilde (a : ℝ) (N : ℕ) (r : ℝ) (n l : ℕ) : ℝ :=
  if r = 0 then -1 / a * CC (RToxi r a) N n l * (4 * π) ^ (0.5 : ℝ)
  else -a ^ l * r ^ (-(l : ℝ) - 1) / (1 + a / r) ^ (2 * (l : ℝ) + 1) * CC (RToxi r a) N n l * (4 * π) ^ (0.5 : ℝ)

/-- `_dphiTilde`, SCFPotential.py:935-947. -/
def dphiTilde (a : ℝ) (N : ℕ) (r : ℝ) (n l : ℕ) : ℝ :=
  let xi := RToxi r a;
  -((4 * π) ^ (0.5 : ℝ)) * ((a * r) ^ l * (l * (a + r) * r⁻¹ - (2 * l + 1)) / (a + r) ^ (2 * l + 2) * CC xi N n l
    + a⁻¹ * (1 - xi) ^ 2 * (a * r) ^ l / (a + r) ^ (2 * l + 1) * dC xi N n l / 2)

/-- `_d2phiTilde`, SCFPotential.py:949-987. -/
def d2phiTilde (a : ℝ) (N : ℕ) (r : ℝ) (n l : ℕ) : ℝ :=
  let ar := a + r;
  let xi := RToxi r a;
  let c0 := CC xi N n l;
  let c1 := dC xi N n l;
  let c2 := d2C xi N n l;
  if r = 0 then 0
  else
    let ar2 := ar * ar;
    let ar3 := ar2 * ar;
    let ar4 := ar3 * ar;
    let rterm := (a * r / ar2) ^ l / (r * r * ar3 * ar2);
    let out := rterm * (c0 * (l * (1 - l) * ar4 - (4 * (l : ℝ) ^ 2 + 6 * l + 2) * r * r * ar2 + l * (4 * l + 2) * r * ar3)
      + a * r * ((4 * r * r + 4 * a * r + (8 * l + 4) * r * ar - 4 * l * ar2) * c1 - 4 * a * r * c2));
    out * (4 * π) ^ (0.5 : ℝ)

/-! ### Angular functions -/

/-- `sph_harm_normalization`, special.py:122-153: the matrix is doubled, its first column halved, and entries above the
diagonal set to zero. -/
def NN (l m : ℕ) : ℝ :=
  if l < m then 0
  else
    let nLn := log (Gamma ((l : ℝ) - m + 1)) - log (Gamma ((l : ℝ) + m + 1));
    let v := ((2 * (l : ℝ) + 1) / (4 * π) * exp nLn) ^ (0.5 : ℝ) * 2;
    if m = 0 then v / 2 else v

/-- `compute_legendre(costheta, L, M)`, special.py:16-72 (value). -/
def PP (l m : ℕ) (x : ℝ) : ℝ := alp l m x
/-- `compute_legendre(costheta, L, M, deriv=True)[1]`, special.py:62-67. -/
def dPP (l m : ℕ) (x : ℝ) : ℝ := deriv (alp l m) x
/-- `compute_legendre(costheta, L, M, deriv=2)[2]`, special.py:56-61. -/
def d2PP (l m : ℕ) (x : ℝ) : ℝ := deriv (deriv (alp l m)) x

/-- `_compute_legendre_2nd_deriv`, special.py:75-119, used with scipy older than 1.15. -/
def d2PPold (l m : ℕ) (x : ℝ) : ℝ :=
  let x := if |1 - x * x| < 1e-14 then (if x ≠ 0 then Real.sign x * (1 - 1e-7) else x) else x;
  let one_minus_x2 := 1 - x * x;
  if m < l + 1 then
    (2 * x * dPP l m x - l * (l + 1) * PP l m x + m * m / one_minus_x2 * PP l m x) / one_minus_x2
  else 0

/-! ### The expansion -/

/-- A constructed potential.  `Ac`, `As` are the arguments `Acos`, `Asin` of a static potential (`Asin=None` gives zeros, line
197); for a time-dependent one `Ic`, `Is` are the splines of the normalised coefficients (lines 298-299). -/
structure Par where
  a : ℝ
  N : ℕ
  L : ℕ
  M : ℕ
  tdep : Bool
  Ac : ℕ → ℕ → ℕ → ℝ
  As : ℕ → ℕ → ℕ → ℝ
  Ic : ℝ → ℕ → ℕ → ℕ → ℝ
  Is : ℝ → ℕ → ℕ → ℕ → ℝ

/-- A pair of coefficient arrays `_Acos`, `_Asin`. -/
structure Coef where
  c : ℕ → ℕ → ℕ → ℝ
  s : ℕ → ℕ → ℕ → ℝ

/-- The coefficients used at time `t`: `_init_static` lines 191-197, `_ensure_coeffs_for_time` lines 306-323. -/
def Par.coef (p : Par) (t : ℝ) : Coef :=
  if p.tdep = true then ⟨p.Ic t, p.Is t⟩
  else ⟨fun n l m => p.Ac n l m * NN l m, fun n l m => p.As n l m * NN l m⟩

/-- `numpy.sum` over an array of shape `(N, L, M)`. -/
def Par.sum (p : Par) (f : ℕ → ℕ → ℕ → ℝ) : ℝ := ∑ n ∈ range p.N, ∑ l ∈ range p.L, ∑ m ∈ range p.M, f n l m

/-- `_compute_at_point`, SCFPotential.py:826-869. -/
def atPoint (p : Par) (k : Coef) (radial : ℝ → ℕ → ℕ → ℝ) (R z φ : ℝ) : ℝ :=
  let s := Coords.cyl_to_spher R z φ;
  p.sum fun n l m => radial s.1 n l * (k.c n l m * cos (m * s.2.2) + k.s n l m * sin (m * s.2.2)) * PP l m (cos s.2.1)

/-- `_evaluate`, SCFPotential.py:930-933. -/
def evaluate (p : Par) (k : Coef) (R z φ : ℝ) : ℝ := atPoint p k (phiTilde p.a p.N) R z φ

/-- `_dens`, SCFPotential.py:917-920. -/
def dens (p : Par) (k : Coef) (R z φ : ℝ) : ℝ := atPoint p k (rhoTilde p.a p.N) R z φ

/-- `_mass` without a height, SCFPotential.py:922-928. -/
def mass (p : Par) (k : Coef) (R : ℝ) : ℝ := R ^ 2 * ∑ n ∈ range p.N, k.c n 0 0 * dphiTilde p.a p.N R n 0

/-- The computation in `_compute_spher_forces_at_point`, SCFPotential.py:1020-1049. -/
def spherForces (p : Par) (k : Coef) (R z φ : ℝ) : ℝ × ℝ × ℝ :=
  let s := Coords.cyl_to_spher R z φ;
  let r := s.1;
  let θ := s.2.1;
  let φ := s.2.2;
  (-p.sum fun n l m => (k.c n l m * cos (m * φ) + k.s n l m * sin (m * φ)) * PP l m (cos θ) * dphiTilde p.a p.N r n l,
   -p.sum fun n l m => (k.c n l m * cos (m * φ) + k.s n l m * sin (m * φ)) * phiTilde p.a p.N r n l * dPP l m (cos θ) * (-sin θ),
   -p.sum fun n l m => m * (k.s n l m * cos (m * φ) - k.c n l m * sin (m * φ)) * phiTilde p.a p.N r n l * PP l m (cos θ))

/-- The eight spherical derivatives. -/
structure Spher2 where
  rr : ℝ
  tt : ℝ
  pp : ℝ
  rt : ℝ
  rp : ℝ
  tp : ℝ
  r : ℝ
  t : ℝ

/-- The computation in `_compute_spher_2nd_derivs_at_point`, SCFPotential.py:1077-1126. -/
def spher2nd (p : Par) (k : Coef) (R z φ : ℝ) : Spher2 :=
  let s := Coords.cyl_to_spher R z φ;
  let r := s.1;
  let θ := s.2.1;
  let φ := s.2.2;
  if r = 0 then ⟨0, 0, 0, 0, 0, 0, 0, 0⟩
  else
    let ct0 := cos θ;
    let nudge : Prop := 1 < p.M ∧ |1 - ct0 * ct0| < 1e-14;
    let ct := open Classical in if nudge then Real.sign ct0 * (1 - 1e-7) else ct0;
    let st := open Classical in if nudge then √(1 - ct ^ 2) else sin θ;
    let dPth := fun l m => dPP l m ct * (-st);
    let d2Pth := fun l m => d2PP l m ct * st ^ 2 - dPP l m ct * ct;
    let F := phiTilde p.a p.N r;
    let F1 := dphiTilde p.a p.N r;
    let F2 := d2phiTilde p.a p.N r;
    let cs := fun n l (m : ℕ) => k.c n l m * cos (m * φ) + k.s n l m * sin (m * φ);
    let dc := fun n l (m : ℕ) => m * (k.s n l m * cos (m * φ) - k.c n l m * sin (m * φ));
    { rr := p.sum fun n l m => cs n l m * PP l m ct * F2 n l
      tt := p.sum fun n l m => cs n l m * d2Pth l m * F n l
      pp := p.sum fun n l m => -(m : ℝ) * m * cs n l m * PP l m ct * F n l
      rt := p.sum fun n l m => cs n l m * dPth l m * F1 n l
      rp := p.sum fun n l m => dc n l m * PP l m ct * F1 n l
      tp := p.sum fun n l m => dc n l m * dPth l m * F n l
      r := p.sum fun n l m => cs n l m * PP l m ct * F1 n l
      t := p.sum fun n l m => cs n l m * dPth l m * F n l }

/-! ### SphericalHarmonicPotentialMixin -/

/-- `_evaluate_cyl_force` for scalar arguments, SphericalHarmonicPotentialMixin.py:58-62. -/
def cylForce (dr dθ dφ : ℝ) (f : ℝ × ℝ × ℝ) : ℝ := dr * f.1 + dθ * f.2.1 + f.2.2 * dφ

/-- `_Rforce`, SphericalHarmonicPotentialMixin.py:82-88. -/
def RforceOf (f : ℝ × ℝ × ℝ) (R z φ : ℝ) : ℝ :=
  let r := (Coords.cyl_to_spher R z φ).1;
  cylForce (R / r) (z / r ^ 2) 0 f
/-- `_zforce`, SphericalHarmonicPotentialMixin.py:90-96. -/
def zforceOf (f : ℝ × ℝ × ℝ) (R z φ : ℝ) : ℝ :=
  let r := (Coords.cyl_to_spher R z φ).1;
  cylForce (z / r) (-R / r ^ 2) 0 f
/-- `_phitorque`, SphericalHarmonicPotentialMixin.py:98-101. -/
def phitorqueOf (f : ℝ × ℝ × ℝ) : ℝ := cylForce 0 0 1 f

/-- The kinds of second derivative, SphericalHarmonicPotentialMixin.py:174-203. -/
inductive Kind where
  | R2 | z2 | Rz | phi2 | Rphi | phiz

/-- `_cyl_2nd_deriv_at_point`, SphericalHarmonicPotentialMixin.py:150-203. -/
def cyl2nd (h : Spher2) (d : Kind) (R z : ℝ) : ℝ :=
  let r2 := R * R + z * z;
  let r := √r2;
  if r = 0 then 0
  else
    let r3 := r * r2;
    let r4 := r2 * r2;
    match d with
    | .R2 => h.rr * R * R / r2 + h.r * z * z / r3 + 2 * h.rt * R * z / r3 + h.tt * z * z / r4 + h.t * (-2 * R * z) / r4
    | .z2 => h.rr * z * z / r2 + h.r * R * R / r3 - 2 * h.rt * z * R / r3 + h.tt * R * R / r4 + h.t * 2 * R * z / r4
    | .Rz => h.rr * R * z / r2 + h.r * (-R * z) / r3 + h.rt * (z * z - R * R) / r3 + h.tt * (-z * R) / r4
        + h.t * (R * R - z * z) / r4
    | .phi2 => h.pp
    | .Rphi => h.rp * R / r + h.tp * z / r2
    | .phiz => h.rp * z / r + h.tp * (-R) / r2

/-- The methods of a freshly constructed potential (nothing remembered from earlier calls), without `_amp`. -/
def raw (p : Par) : Pot where
  val := fun R z φ t => evaluate p (p.coef t) R z φ
  Rforce := fun R z φ t => RforceOf (spherForces p (p.coef t) R z φ) R z φ
  zforce := fun R z φ t => zforceOf (spherForces p (p.coef t) R z φ) R z φ
  phitorque := fun R z φ t => phitorqueOf (spherForces p (p.coef t) R z φ)
  R2deriv := fun R z φ t => cyl2nd (spher2nd p (p.coef t) R z φ) .R2 R z
  z2deriv := fun R z φ t => cyl2nd (spher2nd p (p.coef t) R z φ) .z2 R z
  Rzderiv := fun R z φ t => cyl2nd (spher2nd p (p.coef t) R z φ) .Rz R z
  phi2deriv := fun R z φ t => cyl2nd (spher2nd p (p.coef t) R z φ) .phi2 R z
  Rphideriv := fun R z φ t => cyl2nd (spher2nd p (p.coef t) R z φ) .Rphi R z
  phizderiv := fun R z φ t => cyl2nd (spher2nd p (p.coef t) R z φ) .phiz R z
  dens := fun R z φ t => dens p (p.coef t) R z φ

/-! ### Memory -/

/-- The public evaluation methods. -/
inductive Method where
  | val | dens | mass | Rforce | zforce | phitorque | d2 (k : Kind)

/-- The mutable attributes: `_cached_coeff_t` with the current coefficients, `_force_hash` with the three cached values,
`_2nd_deriv_cache_key` with the eight cached values (lines 300-304, 124-126).  The md5 digest of the arguments is modelled as the
arguments themselves. -/
structure State where
  coefT : Option ℝ
  cur : Coef
  force : Option ((ℝ × ℝ × ℝ × ℝ) × (ℝ × ℝ × ℝ))
  hess : Option ((ℝ × ℝ × ℝ × ℝ) × Spher2)

/-- `_ensure_coeffs_for_time`, SCFPotential.py:306-323. -/
def ensure (p : Par) (σ : State) (t : ℝ) : State :=
  if p.tdep = false then σ
  else if σ.coefT = some t then σ
  else { σ with cur := ⟨p.Ic t, p.Is t⟩, coefT := some t }

open Classical in
/-- `_compute_spher_forces_at_point`, SCFPotential.py:989-1055. -/
def forcesM (p : Par) (σ : State) (R z φ t : ℝ) : State × (ℝ × ℝ × ℝ) :=
  let σ := ensure p σ t;
  match σ.force with
  | some (key, v) =>
    if key = (R, z, φ, t) then (σ, v)
    else (let v := spherForces p σ.cur R z φ; ({ σ with force := some ((R, z, φ, t), v) }, v))
  | none => (let v := spherForces p σ.cur R z φ; ({ σ with force := some ((R, z, φ, t), v) }, v))

open Classical in
/-- `_compute_spher_2nd_derivs_at_point`, SCFPotential.py:1057-1126: the memory is consulted before the coefficients are
updated. -/
def hessM (p : Par) (σ : State) (R z φ t : ℝ) : State × Spher2 :=
  let compute : State × Spher2 :=
    let σ := ensure p σ t;
    let v := spher2nd p σ.cur R z φ;
    ({ σ with hess := some ((R, z, φ, t), v) }, v);
  match σ.hess with
  | some (key, v) => if key = (R, z, φ, t) then (σ, v) else compute
  | none => compute

/-- One call of a method. -/
def call (p : Par) (σ : State) : Method → ℝ → ℝ → ℝ → ℝ → State × ℝ
  | .val, R, z, φ, t => (let σ := ensure p σ t; (σ, evaluate p σ.cur R z φ))
  | .dens, R, z, φ, t => (let σ := ensure p σ t; (σ, dens p σ.cur R z φ))
  | .mass, R, _, _, t => (let σ := ensure p σ t; (σ, mass p σ.cur R))
  | .Rforce, R, z, φ, t => (let x := forcesM p σ R z φ t; (x.1, RforceOf x.2 R z φ))
  | .zforce, R, z, φ, t => (let x := forcesM p σ R z φ t; (x.1, zforceOf x.2 R z φ))
  | .phitorque, R, z, φ, t => (let x := forcesM p σ R z φ t; (x.1, phitorqueOf x.2))
  | .d2 k, R, z, φ, t => (let x := hessM p σ R z φ t; (x.1, cyl2nd x.2 k R z))

/-- The state after construction: `init` are the placeholder coefficients of a time-dependent potential (lines 303-304). -/
def start (p : Par) (init : Coef) : State :=
  ⟨none, if p.tdep = true then init else p.coef 0, none, none⟩

/-- The results of a sequence of calls on one object. -/
def run (p : Par) (σ : State) : List (Method × ℝ × ℝ × ℝ × ℝ) → List ℝ
  | [] => []
  | (m, R, z, φ, t) :: l => (let x := call p σ m R z φ t; x.2 :: run p x.1 l)

end Verif.SCF
