import Verif.Spec.Pot
import Mathlib.Analysis.SpecialFunctions.Pow.Real
import Mathlib.Analysis.SpecialFunctions.Trigonometric.Basic
import Mathlib.Algebra.BigOperators.Fin

set_option autoImplicit false

/-!
# SpiralArmsPotential (Python and C)

`galpy/potential/SpiralArmsPotential.py`, `galpy/potential/potential_c_ext/SpiralArmsPotential.c`: the spiral-arms
potential of Cox and Gomez (2002), a sum over the harmonics `n = 1 … len(Cs)`.

Simplifications: real numbers for floats; `numpy.sum(..., axis=0)` over the harmonics is a finite sum.  For one-dimensional
arrays of `R` or `z` the methods tile `_Cs`, `_ns` and `_HNn` to the shape `(len(Cs), nR)` (lines 128-151 and the same
text in every method), so that each element of the result is the scalar formula; arrays of `phi` with scalar `R`
and `z` are modelled by `evaluateArr` for the value (the other methods do the same).  Unit parsing is modelled in `Verif.Model.Units`.
-/

noncomputable section
namespace Verif.SpiralArms
open Real

/-- The attributes set by the constructor, SpiralArmsPotential.py:91-110: `_N`, `_alpha` (both with the sign changed),
`_r_ref`, `_phi_ref`, `_Rs`, `_H`, `_omega` and `_Cs`. -/
structure Par where
  N : ℝ
  alpha : ℝ
  r_ref : ℝ
  phi_ref : ℝ
  Rs : ℝ
  H : ℝ
  omega : ℝ
  Cs : List ℝ

/-- The constructor, SpiralArmsPotential.py:43-117. -/
def init (N alpha r_ref phi_ref Rs H omega : ℝ) (Cs : List ℝ) : Par :=
  ⟨-N, -alpha, r_ref, phi_ref, Rs, H, omega, Cs⟩

variable (p : Par)

/-- `_sin_alpha`, SpiralArmsPotential.py:100. -/
def sina : ℝ := sin p.alpha
/-- `_tan_alpha`, SpiralArmsPotential.py:101. -/
def tana : ℝ := tan p.alpha
/-- An element of `_HNn`, SpiralArmsPotential.py:110. -/
def HNn (n : ℝ) : ℝ := p.H * p.N * n

/-- `_gamma`, SpiralArmsPotential.py:1019-1023. -/
def gamma (R φ : ℝ) : ℝ := p.N * (φ - p.phi_ref - log (R / p.r_ref) / tana p)
/-- `_dgamma_dR`, SpiralArmsPotential.py:1025-1027. -/
def dgamma (R : ℝ) : ℝ := -p.N / R / tana p
/-- `_K`, SpiralArmsPotential.py:1029-1031. -/
def K (n R : ℝ) : ℝ := n * p.N / R / sina p
/-- `_dK_dR`, SpiralArmsPotential.py:1033-1035. -/
def dK (n R : ℝ) : ℝ := -n * p.N / R ^ 2 / sina p
/-- `_B`, SpiralArmsPotential.py:1037-1041. -/
def B (n R : ℝ) : ℝ :=
  let HNn_R := HNn p n / R;
  HNn_R / sina p * (0.4 * HNn_R / sina p + 1)
/-- `_dB_dR`, SpiralArmsPotential.py:1043-1050. -/
def dB (n R : ℝ) : ℝ := -HNn p n / R ^ 3 / sina p ^ 2 * (0.8 * HNn p n + R * sina p)
/-- `_D`, SpiralArmsPotential.py:1052-1056. -/
def D (n R : ℝ) : ℝ := (0.3 * HNn p n ^ 2 / sina p / R + HNn p n + R * sina p) / (0.3 * HNn p n + R * sina p)
/-- `_dD_dR`, SpiralArmsPotential.py:1058-1068. -/
def dD (n R : ℝ) : ℝ :=
  let h := HNn p n / R / sina p;
  h * (0.3 * (h + 0.3 * h ^ 2 + 1) / R / (0.3 * h + 1) ^ 2 - 1 / R * (1 + 0.6 * h) / (0.3 * h + 1))

/-- `d2Ks_dR2`, SpiralArmsPotential.py:419. -/
def d2K (n R : ℝ) : ℝ := 2 * p.N * n / R ^ 3 / sina p
/-- `d2Bs_dR2`, SpiralArmsPotential.py:414-420. -/
def d2B (n R : ℝ) : ℝ :=
  let h := HNn p n / (R * sina p);
  h / R ^ 2 * (2.4 * h + 2)
/-- `d2Ds_dR2`, SpiralArmsPotential.py:414-435. -/
def d2D (n R : ℝ) : ℝ :=
  let R_sina := R * sina p;
  let h := HNn p n / R_sina;
  let x := R * (0.3 * h + 1) * sina p;
  sina p / R / x
    * (HNn p n
      * (0.18 * HNn p n * (h + 0.3 * h ^ 2 + 1) / x ^ 2 + 2 / R_sina - 0.6 * h * (1 + 0.6 * h) / x
        - 0.6 * (h + 0.3 * h ^ 2 + 1) / x + 1.8 * HNn p n / R_sina ^ 2))
/-- `d2g_dR2`, SpiralArmsPotential.py:439. -/
def d2gamma (R : ℝ) : ℝ := p.N / R ^ 2 / tana p

/-- `numpy.sum(..., axis=0)` over the harmonics; the `i`-th coefficient belongs to the harmonic `i + 1`
(SpiralArmsPotential.py:107). -/
def total (f : ℝ → ℝ → ℝ) : ℝ := ∑ i : Fin p.Cs.length, f (p.Cs.get i) (i + 1)

/-- `_evaluate`, SpiralArmsPotential.py:157-172. -/
def evaluate (R z φ t : ℝ) : ℝ :=
  -p.H * exp (-(R - p.r_ref) / p.Rs)
    * total p fun C n =>
      C / K p n R / D p n R * cos (n * gamma p R (φ - p.omega * t)) / cosh (K p n R * z / B p n R) ^ B p n R

/-- `_Rforce`, SpiralArmsPotential.py:212-249. -/
def Rforce (R z φ t : ℝ) : ℝ :=
  let He := p.H * exp (-(R - p.r_ref) / p.Rs);
  let g := gamma p R (φ - p.omega * t);
  let dg := dgamma p R;
  -He
    * total p fun C n =>
      let Ks := K p n R; let Bs := B p n R; let Ds := D p n R;
      let k := dK p n R; let b := dB p n R; let d := dD p n R;
      let c := cos (n * g); let s := sin (n * g);
      let zKB := z * Ks / Bs;
      let sech := 1 / cosh zKB;
      C * sech ^ Bs / Ds
        * ((n * dg / Ks * s
            + c * (z * tanh zKB * (k / Ks - b / Bs) - b / Ks * log sech + k / Ks ^ 2 + d / Ds / Ks))
          + c / Ks / p.Rs)

/-- `_zforce`, SpiralArmsPotential.py:289-305. -/
def zforce (R z φ t : ℝ) : ℝ :=
  -p.H * exp (-(R - p.r_ref) / p.Rs)
    * total p fun C n =>
      let zKB := z * K p n R / B p n R;
      C / D p n R * cos (n * gamma p R (φ - p.omega * t)) * tanh zKB / cosh zKB ^ B p n R

/-- `_phitorque`, SpiralArmsPotential.py:345-363. -/
def phitorque (R z φ t : ℝ) : ℝ :=
  let g := gamma p R (φ - p.omega * t);
  -p.H * exp (-(R - p.r_ref) / p.Rs)
    * total p fun C n =>
      p.N * n * C / D p n R / K p n R / cosh (z * K p n R / B p n R) ^ B p n R * sin (n * g)

/-- `_R2deriv`, SpiralArmsPotential.py:403-581. -/
def R2deriv (R z φ t : ℝ) : ℝ :=
  let Rs := p.Rs;
  let He := p.H * exp (-(R - p.r_ref) / p.Rs);
  let g := gamma p R (φ - p.omega * t);
  let dg := dgamma p R;
  let d2g := d2gamma p R;
  -He / Rs
    * total p fun C n =>
      let Ks := K p n R; let Bs := B p n R; let Ds := D p n R;
      let k := dK p n R; let b := dB p n R; let d := dD p n R;
      let k2 := d2K p n R; let b2 := d2B p n R; let d2 := d2D p n R;
      let s := sin (n * g); let c := cos (n * g);
      let zKB := z * Ks / Bs;
      let sech := 1 / cosh zKB;
      let sechB := sech ^ Bs;
      let ls := log sech;
      let th := tanh zKB;
      let zt := z * th;
      C * sechB / Ds
        * ((n * dg / Ks * s + c * (zt * (k / Ks - b / Bs) - b / Ks * ls + k / Ks ^ 2 + d / Ds / Ks))
          - (Rs
              * (1 / Ks * ((zt * (b / Bs * Ks - k) + ls * b) - d / Ds)
                  * (n * dg * s + c * (zt * Ks * (k / Ks - b / Bs) - b * ls + k / Ks + d / Ds))
                + (n * (s * (d2g / Ks - dg / Ks ^ 2 * k) + dg ^ 2 / Ks * c * n)
                  + z * (-s * n * dg * th * (k / Ks - b / Bs)
                    + c * (z * (k / Bs - b / Bs ^ 2 * Ks) * (1 - th ^ 2) * (k / Ks - b / Bs)
                      + th * (k2 / Ks - (k / Ks) ^ 2 - b2 / Bs + (b / Bs) ^ 2)))
                  + (c * (b / Ks * zt * (k / Bs - b / Bs ^ 2 * Ks) - (b2 / Ks - b * k / Ks ^ 2) * ls)
                    + b / Ks * ls * s * n * dg)
                  + ((c * (k2 / Ks ^ 2 - 2 * k ^ 2 / Ks ^ 3) - k / Ks ^ 2 * s * n * dg)
                    + (c * (d2 / Ds / Ks - (d / Ds) ^ 2 / Ks - d / Ds / Ks ^ 2 * k) - s * n * dg * d / Ds / Ks))))
            - 1 / Ks
              * (c / Rs
                + (c * ((d * Ks + Ds * k) / (Ds * Ks) - (zt * (b / Bs * Ks - k) + ls * b)) + s * n * dg))))

/-- `_z2deriv`, SpiralArmsPotential.py:621-640. -/
def z2deriv (R z φ t : ℝ) : ℝ :=
  let g := gamma p R (φ - p.omega * t);
  -p.H * exp (-(R - p.r_ref) / p.Rs)
    * total p fun C n =>
      let zKB := z * K p n R / B p n R;
      let tanh2 := tanh zKB ^ 2;
      C * K p n R / D p n R * ((tanh2 - 1) / B p n R + tanh2) * cos (n * g) / cosh zKB ^ B p n R

/-- `_phi2deriv`, SpiralArmsPotential.py:680-698. -/
def phi2deriv (R z φ t : ℝ) : ℝ :=
  let g := gamma p R (φ - p.omega * t);
  p.H * exp (-(R - p.r_ref) / p.Rs)
    * total p fun C n =>
      C * p.N ^ 2 * n ^ 2 / D p n R / K p n R / cosh (z * K p n R / B p n R) ^ B p n R * cos (n * g)

/-- `_Rzderiv`, SpiralArmsPotential.py:738-789. -/
def Rzderiv (R z φ t : ℝ) : ℝ :=
  let Rs := p.Rs;
  let He := p.H * exp (-(R - p.r_ref) / p.Rs);
  let g := gamma p R (φ - p.omega * t);
  let dg := dgamma p R;
  -He
    * total p fun C n =>
      let Ks := K p n R; let Bs := B p n R; let Ds := D p n R;
      let k := dK p n R; let b := dB p n R; let d := dD p n R;
      let c := cos (n * g); let s := sin (n * g);
      let zKB := z * Ks / Bs;
      let sech := 1 / cosh zKB;
      let sechB := sech ^ Bs;
      let ls := log sech;
      let th := tanh zKB;
      sechB * C / Ds
        * (Ks * th
            * (n * dg / Ks * s + c * (z * th * (k / Ks - b / Bs) - b / Ks * ls + k / Ks ^ 2 + d / Ds / Ks))
          - c * ((zKB * (k / Ks - b / Bs) * (1 - th ^ 2) + th * (k / Ks - b / Bs) + b / Bs * th) - th / Rs))

/-- `_Rphideriv`, SpiralArmsPotential.py:829-870. -/
def Rphideriv (R z φ t : ℝ) : ℝ :=
  let He := p.H * exp (-(R - p.r_ref) / p.Rs);
  let g := gamma p R (φ - p.omega * t);
  let dg := dgamma p R;
  -He
    * total p fun C n =>
      let Ks := K p n R; let Bs := B p n R; let Ds := D p n R;
      let k := dK p n R; let b := dB p n R; let d := dD p n R;
      let c := cos (n * g); let s := sin (n * g);
      let zKB := z * Ks / Bs;
      let sech := 1 / cosh zKB;
      let sechB := sech ^ Bs;
      C * sechB / Ds * n * p.N
        * (-n * dg / Ks * c
          + s * (z * tanh zKB * (k / Ks - b / Bs) + 1 / Ks * (-b * log sech + k / Ks + d / Ds + 1 / p.Rs)))

/-- `_phizderiv`, SpiralArmsPotential.py:910-928. -/
def phizderiv (R z φ t : ℝ) : ℝ :=
  -p.H * exp (-(R - p.r_ref) / p.Rs)
    * total p fun C n =>
      let zKB := z * K p n R / B p n R;
      C / D p n R * n * p.N * sin (n * gamma p R (φ - p.omega * t)) * tanh zKB / cosh zKB ^ B p n R

/-- `_dens`, SpiralArmsPotential.py:968-1014. -/
def dens (R z φ t : ℝ) : ℝ :=
  let g := gamma p R (φ - p.omega * t);
  let rho0 := 1 / (4 * π);
  total p fun C n =>
    let Ks := K p n R; let Bs := B p n R; let Ds := D p n R;
    let ng := n * g;
    let zKB := z * Ks / Bs;
    let sech := 1 / cosh zKB;
    let th := tanh zKB;
    let ls := log sech;
    let E := 1 + Ks * p.H / Ds * (1 - 0.3 / (1 + 0.3 * Ks * p.H) ^ 2) - R / p.Rs
      - (Ks * p.H) * (1 + 0.8 * Ks * p.H) * ls - 0.4 * (Ks * p.H) ^ 2 * zKB * th;
    let rE := -Ks * p.H / Ds * (1 - 0.3 * (1 - 0.3 * Ks * p.H) / (1 + 0.3 * Ks * p.H) ^ 3)
      + (Ks * p.H / Ds * (1 - 0.3 / (1 + 0.3 * Ks * p.H) ^ 2)) - R / p.Rs
      + Ks * p.H * (1 + 1.6 * Ks * p.H) * ls - (0.4 * (Ks * p.H) ^ 2 * zKB * sech) ^ 2 / Bs
      + 1.2 * (Ks * p.H) ^ 2 * zKB * th;
    C * rho0 * (p.H / (Ds * R)) * exp (-(R - p.r_ref) / p.Rs) * sech ^ Bs
      * (cos ng * (Ks * R * (Bs + 1) / Bs * sech ^ 2 - 1 / Ks / R * (E ^ 2 + rE)) - 2 * sin ng * E * cos p.alpha)

/-- The methods of the class without the amplitude. -/
def pot : Pot where
  val := evaluate p
  Rforce := Rforce p
  zforce := zforce p
  phitorque := phitorque p
  R2deriv := R2deriv p
  z2deriv := z2deriv p
  Rzderiv := Rzderiv p
  phi2deriv := phi2deriv p
  Rphideriv := Rphideriv p
  phizderiv := phizderiv p
  dens := dens p

/-- An argument of a method: a number or a one-dimensional `numpy` array. -/
inductive Arg where
  | num (x : ℝ)
  | vec (l : List ℝ)

/-- Whether it is an array (`isinstance(R, numpy.ndarray)`). -/
def Arg.isVec : Arg → Bool
  | .num _ => false
  | .vec _ => true
/-- The length for broadcasting: numbers count as arrays of length 1. -/
def Arg.len : Arg → ℕ
  | .num _ => 1
  | .vec l => l.length
/-- The element used at position `j` of the broadcast result. -/
def Arg.at (a : Arg) (j : ℕ) : ℝ :=
  match a with
  | .num x => x
  | .vec l => if l.length = 1 then l.getD 0 0 else l.getD j 0

/-- What a method may return. -/
inductive Out where
  | num (x : ℝ)
  | vec (l : List ℝ)
  | valueError

/-- `_evaluate` with one-dimensional arrays, SpiralArmsPotential.py:119-172.  If `R` or `z` is an array, `_Cs`, `_ns` and
`_HNn` are tiled to the shape `(len(Cs), nR)` and the product has the shape `(len(Cs), m)` with `m` the common length of
the columns; all lengths must be 1 or `m` (numpy's broadcasting rule, else `ValueError`), and `sum(axis=0)` sums the
rows.  If both are numbers `_Cs` and `_ns` keep the shape `(len(Cs),)`: then the product with `_gamma(R, phi)` of shape
`(len(phi),)` has one axis, of the common length of the two, which `sum(axis=0)` sums over. -/
def evaluateArr (R z φ : Arg) (t : ℝ) : Out :=
  let pre (R : ℝ) : ℝ := -p.H * exp (-(R - p.r_ref) / p.Rs);
  let term (R z φ C n : ℝ) : ℝ :=
    C / K p n R / D p n R * cos (n * gamma p R (φ - p.omega * t)) / cosh (K p n R * z / B p n R) ^ B p n R;
  if R.isVec || z.isVec then
    let nR := if R.isVec then R.len else z.len;
    let m := [nR, R.len, z.len, φ.len].foldl (fun m k => if m = 1 then k else m) 1;
    if [nR, R.len, z.len, φ.len].all fun k => k = 1 ∨ k = m then
      .vec ((List.range m).map fun j => pre (R.at j) * total p (term (R.at j) (z.at j) (φ.at j)))
    else .valueError
  else
    match φ with
    | .num φ => .num (pre (R.at 0) * total p (term (R.at 0) (z.at 0) φ))
    | .vec φs =>
      let nC := p.Cs.length;
      let m := if nC = 1 then φs.length else nC;
      if φs.length = 1 ∨ φs.length = m then
        .num (pre (R.at 0) * ((List.range m).map fun j =>
          let i := if nC = 1 then 0 else j;
          term (R.at 0) (z.at 0) (Arg.at (.vec φs) j) (p.Cs.getD i 0) (i + 1)).sum)
      else .valueError

/-! The C version, SpiralArmsPotential.c; `amp` is the first argument after the number of coefficients.  The order of the
arguments is that of orbit/integrateFullOrbit.py:337-353.  `gam`, `dgam_dR` and `K` (SpiralArmsPotential.c:904-914) are the
same expressions as in Python. -/

/-- `B`, SpiralArmsPotential.c:916-919. -/
def cB (n R : ℝ) : ℝ :=
  let HNn_R := p.H * p.N * n / R;
  HNn_R / sina p * (0.4 * HNn_R / sina p + 1)
/-- `D`, SpiralArmsPotential.c:921-925. -/
def cD (n R : ℝ) : ℝ :=
  let HNn := p.H * p.N * n;
  (0.3 * HNn * HNn / sina p / R + HNn + R * sina p) / (0.3 * HNn + R * sina p)
/-- `dK_dR`, SpiralArmsPotential.c:927-929. -/
def cdK (n R : ℝ) : ℝ := -n * p.N / (R * R) / sina p
/-- `dB_dR`, SpiralArmsPotential.c:931-934. -/
def cdB (n R : ℝ) : ℝ :=
  let HNn := p.H * p.N * n;
  -HNn / R / R / R / sina p / sina p * (0.8 * HNn + R * sina p)
/-- `dD_dR`, SpiralArmsPotential.c:936-940. -/
def cdD (n R : ℝ) : ℝ :=
  let h := p.H * p.N * n / R / sina p;
  h * (0.3 * (h + 0.3 * h * h + 1) / R / (0.3 * h + 1) ^ 2 - (1 / R * (1 + 0.6 * h) / (0.3 * h + 1)))
/-- `d2Bn_dR2` in `SpiralArmsPotentialR2deriv`, SpiralArmsPotential.c:212-346. -/
def cd2B (n R : ℝ) : ℝ :=
  let HNn_R := p.H * p.N * n / R;
  HNn_R / R / R / sina p * (2.4 * HNn_R / sina p + 2)
/-- `d2Dn_dR2` in `SpiralArmsPotentialR2deriv`, SpiralArmsPotential.c:212-346. -/
def cd2D (n R : ℝ) : ℝ :=
  let HNn := p.H * p.N * n;
  let R_sina := R * sina p;
  let h := HNn / R_sina;
  let x := R * (0.3 * h + 1) * sina p;
  sina p / R / x * (HNn * (0.18 * HNn * (h + 0.3 * (h * h) + 1) / x / x + 2 / R_sina - 0.6 * h * (1 + 0.6 * h) / x
    - 0.6 * (h + 0.3 * (h * h) + 1) / x + 1.8 * HNn / R_sina / R_sina))

/-- `SpiralArmsPotentialEval`, SpiralArmsPotential.c:21-58. -/
def cEval (amp R z φ t : ℝ) : ℝ :=
  let g := gamma p R (φ - p.omega * t);
  -amp * p.H * exp (-(R - p.r_ref) / p.Rs)
    * total p fun C n => C / K p n R / cD p n R * cos (n * g) / cosh (K p n R * z / cB p n R) ^ cB p n R
/-- `SpiralArmsPotentialRforce`, SpiralArmsPotential.c:61-125. -/
def cRforce (amp R z φ t : ℝ) : ℝ :=
  let g := gamma p R (φ - p.omega * t);
  let dg := dgamma p R;
  -amp * p.H * exp (-(R - p.r_ref) / p.Rs)
    * total p fun C n =>
      let Kn := K p n R; let Bn := cB p n R; let Dn := cD p n R;
      let k := cdK p n R; let b := cdB p n R; let d := cdD p n R;
      let c := cos (n * g); let s := sin (n * g);
      let zKB := z * Kn / Bn;
      let sech := 1 / cosh zKB;
      C * sech ^ Bn / Dn * ((n * dg / Kn * s
          + c * (z * tanh zKB * (k / Kn - b / Bn) - b / Kn * log sech + k / Kn / Kn + d / Dn / Kn)) + c / Kn / p.Rs)
/-- `SpiralArmsPotentialzforce`, SpiralArmsPotential.c:128-170. -/
def czforce (amp R z φ t : ℝ) : ℝ :=
  let g := gamma p R (φ - p.omega * t);
  -amp * p.H * exp (-(R - p.r_ref) / p.Rs)
    * total p fun C n =>
      let zKB := z * K p n R / cB p n R;
      C / cD p n R * cos (n * g) * tanh zKB / cosh zKB ^ cB p n R
/-- `SpiralArmsPotentialphitorque`, SpiralArmsPotential.c:172-210. -/
def cphitorque (amp R z φ t : ℝ) : ℝ :=
  let g := gamma p R (φ - p.omega * t);
  -amp * p.H * exp (-(R - p.r_ref) / p.Rs)
    * total p fun C n =>
      p.N * n * C / cD p n R / K p n R / cosh (z * K p n R / cB p n R) ^ cB p n R * sin (n * g)
/-- `SpiralArmsPotentialR2deriv`, SpiralArmsPotential.c:212-346. -/
def cR2deriv (amp R z φ t : ℝ) : ℝ :=
  let Rs := p.Rs;
  let g := gamma p R (φ - p.omega * t);
  let dg := dgamma p R;
  let d2g := p.N / R / R / tana p;
  -amp * p.H * exp (-(R - p.r_ref) / p.Rs) / Rs
    * total p fun C n =>
      let Kn := K p n R; let Bn := cB p n R; let Dn := cD p n R;
      let k := cdK p n R; let b := cdB p n R; let d := cdD p n R;
      let k2 := 2 * p.N * n / R / R / R / sina p; let b2 := cd2B p n R; let d2 := cd2D p n R;
      let c := cos (n * g); let s := sin (n * g);
      let zKB := z * Kn / Bn;
      let sech := 1 / cosh zKB;
      let sechB := sech ^ Bn;
      let ls := log sech;
      let th := tanh zKB;
      let zt := z * th;
      C * sechB / Dn
        * ((n * dg / Kn * s + c * (zt * (k / Kn - b / Bn) - b / Kn * ls + k / Kn / Kn + d / Dn / Kn))
          - (Rs
              * (1 / Kn * ((zt * (b / Bn * Kn - k) + ls * b) - d / Dn)
                  * (n * dg * s + c * (zt * Kn * (k / Kn - b / Bn) - b * ls + k / Kn + d / Dn))
                + (n * (s * (d2g / Kn - dg / Kn / Kn * k) + dg * dg / Kn * c * n)
                  + z * (-s * n * dg * th * (k / Kn - b / Bn)
                    + c * (z * (k / Bn - b / Bn / Bn * Kn) * (1 - th * th) * (k / Kn - b / Bn)
                      + th * (k2 / Kn - (k / Kn) * (k / Kn) - b2 / Bn + (b / Bn) * (b / Bn))))
                  + (c * (b / Kn * zt * (k / Bn - b / Bn / Bn * Kn) - (b2 / Kn - b * k / Kn / Kn) * ls)
                    + b / Kn * ls * s * n * dg)
                  + ((c * (k2 / Kn / Kn - 2 * k * k / Kn / Kn / Kn) - k / Kn / Kn * s * n * dg)
                    + (c * (d2 / Dn / Kn - (d / Dn) * (d / Dn) / Kn - d / Dn / Kn / Kn * k)
                      - s * n * dg * d / Dn / Kn))))
            - 1 / Kn
              * (c / Rs
                + (c * ((d * Kn + Dn * k) / (Dn * Kn) - (zt * (b / Bn * Kn - k) + ls * b)) + s * n * dg))))
/-- `SpiralArmsPotentialz2deriv`, SpiralArmsPotential.c:348-392. -/
def cz2deriv (amp R z φ t : ℝ) : ℝ :=
  let g := gamma p R (φ - p.omega * t);
  -amp * p.H * exp (-(R - p.r_ref) / p.Rs)
    * total p fun C n =>
      let zKB := z * K p n R / cB p n R;
      let tanh2 := tanh zKB * tanh zKB;
      C * K p n R / cD p n R * ((tanh2 - 1) / cB p n R + tanh2) * cos (n * g) / cosh zKB ^ cB p n R
/-- `SpiralArmsPotentialphi2deriv`, SpiralArmsPotential.c:394-432. -/
def cphi2deriv (amp R z φ t : ℝ) : ℝ :=
  let g := gamma p R (φ - p.omega * t);
  amp * p.H * exp (-(R - p.r_ref) / p.Rs)
    * total p fun C n =>
      C * p.N * p.N * n * n / cD p n R / K p n R / cosh (z * K p n R / cB p n R) ^ cB p n R * cos (n * g)
/-- `SpiralArmsPotentialRzderiv`, SpiralArmsPotential.c:434-508. -/
def cRzderiv (amp R z φ t : ℝ) : ℝ :=
  let g := gamma p R (φ - p.omega * t);
  let dg := dgamma p R;
  -amp * p.H * exp (-(R - p.r_ref) / p.Rs)
    * total p fun C n =>
      let Kn := K p n R; let Bn := cB p n R; let Dn := cD p n R;
      let k := cdK p n R; let b := cdB p n R; let d := cdD p n R;
      let c := cos (n * g); let s := sin (n * g);
      let zKB := z * Kn / Bn;
      let sech := 1 / cosh zKB;
      let ls := log sech;
      let th := tanh zKB;
      sech ^ Bn * C / Dn
        * (Kn * th * (n * dg / Kn * s
            + c * (z * th * (k / Kn - b / Bn) - b / Kn * ls + k / Kn / Kn + d / Dn / Kn))
          - c * ((zKB * (k / Kn - b / Bn) * (1 - th * th) + th * (k / Kn - b / Bn) + b / Bn * th) - th / p.Rs))
/-- `SpiralArmsPotentialRphideriv`, SpiralArmsPotential.c:510-579. -/
def cRphideriv (amp R z φ t : ℝ) : ℝ :=
  let g := gamma p R (φ - p.omega * t);
  let dg := dgamma p R;
  -amp * p.H * exp (-(R - p.r_ref) / p.Rs)
    * total p fun C n =>
      let Kn := K p n R; let Bn := cB p n R; let Dn := cD p n R;
      let k := cdK p n R; let b := cdB p n R; let d := cdD p n R;
      let c := cos (n * g); let s := sin (n * g);
      let zKB := z * Kn / Bn;
      let sech := 1 / cosh zKB;
      C * sech ^ Bn / Dn * n * p.N * (-n * dg / Kn * c
        + s * (z * tanh zKB * (k / Kn - b / Bn) + 1 / Kn * (-b * log sech + k / Kn + d / Dn + 1 / p.Rs)))
/-- `SpiralArmsPotentialzphideriv`, SpiralArmsPotential.c:581-623. -/
def czphideriv (amp R z φ t : ℝ) : ℝ :=
  let g := gamma p R (φ - p.omega * t);
  -amp * p.H * exp (-(R - p.r_ref) / p.Rs)
    * total p fun C n =>
      let zKB := z * K p n R / cB p n R;
      C / cD p n R * n * p.N * sin (n * g) * tanh zKB / cosh zKB ^ cB p n R
/-- `SpiralArmsPotentialPlanarRforce`, SpiralArmsPotential.c:625-678. -/
def cPlanarRforce (amp R φ t : ℝ) : ℝ :=
  let g := gamma p R (φ - p.omega * t);
  let dg := dgamma p R;
  -amp * p.H * exp (-(R - p.r_ref) / p.Rs)
    * total p fun C n =>
      let Kn := K p n R; let Dn := cD p n R; let k := cdK p n R; let d := cdD p n R;
      let c := cos (n * g); let s := sin (n * g);
      C / Dn * ((n * dg / Kn * s + c * (k / Kn / Kn + d / Dn / Kn)) + c / Kn / p.Rs)
/-- `SpiralArmsPotentialPlanarphitorque`, SpiralArmsPotential.c:680-716. -/
def cPlanarphitorque (amp R φ t : ℝ) : ℝ :=
  let g := gamma p R (φ - p.omega * t);
  -amp * p.H * exp (-(R - p.r_ref) / p.Rs)
    * total p fun C n => p.N * n * C / cD p n R / K p n R * sin (n * g)
/-- `SpiralArmsPotentialPlanarR2deriv`, SpiralArmsPotential.c:718-808. -/
def cPlanarR2deriv (amp R φ t : ℝ) : ℝ :=
  let Rs := p.Rs;
  let g := gamma p R (φ - p.omega * t);
  let dg := dgamma p R;
  let d2g := p.N / R / R / tana p;
  -amp * p.H * exp (-(R - p.r_ref) / p.Rs) / Rs
    * total p fun C n =>
      let Kn := K p n R; let Dn := cD p n R; let k := cdK p n R; let d := cdD p n R;
      let k2 := 2 * p.N * n / R / R / R / sina p; let d2 := cd2D p n R;
      let c := cos (n * g); let s := sin (n * g);
      C / Dn * ((n * dg / Kn * s + c * (k / Kn / Kn + d / Dn / Kn))
        - (Rs
            * (1 / Kn * (-d / Dn) * (n * dg * s + c * (k / Kn + d / Dn))
              + (n * (s * (d2g / Kn - dg / Kn / Kn * k) + dg * dg / Kn * c * n)
                + ((c * (k2 / Kn / Kn - 2 * k * k / Kn / Kn / Kn) - k / Kn / Kn * s * n * dg)
                  + (c * (d2 / Dn / Kn - (d / Dn) * (d / Dn) / Kn - d / Dn / Kn / Kn * k)
                    - s * n * dg * d / Dn / Kn))))
          - 1 / Kn * (c / Rs + (c * ((d * Kn + Dn * k) / (Dn * Kn)) + s * n * dg))))
/-- `SpiralArmsPotentialPlanarphi2deriv`, SpiralArmsPotential.c:810-846. -/
def cPlanarphi2deriv (amp R φ t : ℝ) : ℝ :=
  let g := gamma p R (φ - p.omega * t);
  amp * p.H * exp (-(R - p.r_ref) / p.Rs)
    * total p fun C n => C * p.N * p.N * n * n / cD p n R / K p n R * cos (n * g)
/-- `SpiralArmsPotentialPlanarRphideriv`, SpiralArmsPotential.c:848-902. -/
def cPlanarRphideriv (amp R φ t : ℝ) : ℝ :=
  let g := gamma p R (φ - p.omega * t);
  let dg := dgamma p R;
  -amp * p.H * exp (-(R - p.r_ref) / p.Rs)
    * total p fun C n =>
      let Kn := K p n R; let Dn := cD p n R; let k := cdK p n R; let d := cdD p n R;
      let c := cos (n * g); let s := sin (n * g);
      C / Dn * n * p.N * (-n * dg / Kn * c + s * (1 / Kn * (k / Kn + d / Dn + 1 / p.Rs)))

end Verif.SpiralArms
