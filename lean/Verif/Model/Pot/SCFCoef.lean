import Verif.Model.Pot.SCF
import Mathlib.MeasureTheory.Integral.IntervalIntegral.Basic

set_option autoImplicit false

/-!
# Coefficients of SCFPotential from a density or from particles

Transcription of `scf_compute_coeffs_spherical`, `scf_compute_coeffs_axi`, `scf_compute_coeffs`, of their versions for particles
and of the batched sums in `galpy/potential/SCFPotential.py`.  numpy's `leggauss` is outside: `leg K` are the nodes and weights
it returns.  The density is a function without units; finding out how many arguments it takes is not modelled.
-/

noncomputable section
namespace Verif.SCF
open Real Finset

/-- Nodes and weights, `leggauss(K)`; only indices below `K` are used. -/
structure Rule where
  x : ℕ → ℝ
  w : ℕ → ℝ

/-- The rule mapped to `[a, b]`, SCFPotential.py:2216-2219. -/
def Rule.map (r : Rule) (a b : ℝ) : Rule where
  x := fun i => 0.5 * (b - a) * r.x i + 0.5 * (b + a)
  w := fun i => 0.5 * (b - a) * r.w i

/-- `_gaussianQuadrature` of a function of one variable, SCFPotential.py:2188-2239 (`roundoff` is never given). -/
def quad1 (leg : ℕ → Rule) (K : ℕ) (a b : ℝ) (f : ℝ → ℝ) : ℝ :=
  let r := (leg K).map a b;
  ∑ i ∈ range K, r.w i * f (r.x i)

/-- `_gaussianQuadrature` of a function of two variables. -/
def quad2 (leg : ℕ → Rule) (K₁ K₂ : ℕ) (a b c d : ℝ) (f : ℝ → ℝ → ℝ) : ℝ :=
  let r := (leg K₁).map a b;
  let s := (leg K₂).map c d;
  ∑ i ∈ range K₁, ∑ j ∈ range K₂, r.w i * s.w j * f (r.x i) (s.x j)

/-- `_gaussianQuadrature` of a function of three variables over `[a, b]`, `[c, d]` and the azimuth; the rule for the azimuth is
replaced by the exact integral. -/
def quad3 (leg : ℕ → Rule) (K₁ K₂ : ℕ) (a b c d : ℝ) (f : ℝ → ℝ → ℝ → ℝ) : ℝ :=
  quad2 leg K₁ K₂ a b c d fun x y => ∫ φ in (0 : ℝ)..(2 * π), f x y φ

/-- `scf_compute_coeffs_spherical`, SCFPotential.py:1339-1400: the entry `Acos[n, 0, 0]`; `dens` is the density as a function of
its first argument, the others being zero. -/
def coefSpher (leg : ℕ → Rule) (dens : ℝ → ℝ) (N : ℕ) (a : ℝ) (radial_order : Option ℕ) (n : ℕ) : ℝ :=
  let K₁ := radial_order.getD (max (N + 1) 20);
  let integrated := quad1 leg K₁ (-1) 1 fun xi =>
    a ^ 3 * dens (xiToR xi a) * (1 + xi) ^ 2 * ((1 - xi) ^ 3)⁻¹ * CC xi N n 0;
  let K := 16 * π * ((n : ℝ) + 3 / 2) / (((n : ℝ) + 2) * (n + 1) * (1 + n * (n + 3) / 2));
  2 * K * integrated

/-- `Ksample[0]`, SCFPotential.py:1525-1527, 1840-1842. -/
def orderR (N L : ℕ) (radial_order : Option ℕ) : ℕ := radial_order.getD (max (N + 3 * L / 2 + 1) 20)
/-- `Ksample[1]`, SCFPotential.py:1525-1529, 1840-1844. -/
def orderC (L : ℕ) (costheta_order : Option ℕ) : ℕ := costheta_order.getD (max (L + 1) 20)

/-- `K`, SCFPotential.py:1536, 1853. -/
def Knl (n l : ℕ) : ℝ := 0.5 * n * (n + 4 * l + 3) + (l + 1) * (2 * l + 1)

/-- `I`, SCFPotential.py:1539-1546, 1864-1871. -/
def Inl (n l : ℕ) : ℝ :=
  let lnI := -(8 * (l : ℝ) + 6) * log 2 + log (Gamma ((n : ℝ) + 4 * l + 3)) - log (Gamma ((n : ℝ) + 1))
    - log ((n : ℝ) + 2 * l + 3 / 2) - 2 * log (Gamma (2 * (l : ℝ) + 3 / 2));
  -Knl n l * (4 * π) * exp lnI

/-- `dV`, SCFPotential.py:1513, 1820. -/
def dVol (xi : ℝ) : ℝ := (1 + xi) ^ 2 * ((1 - xi) ^ 4)⁻¹

/-- `scf_compute_coeffs_axi`, SCFPotential.py:1467-1549: the entry `Acos[n, l, 0]`. -/
def coefAxi (leg : ℕ → Rule) (dens : ℝ → ℝ → ℝ) (N L : ℕ) (a : ℝ) (radial_order costheta_order : Option ℕ) (n l : ℕ) : ℝ :=
  let integrated := quad2 leg (orderR N L radial_order) (orderC L costheta_order) (-1) 1 (-1) 1 (fun xi x =>
    let r := xiToR xi a;
    let R := r * √(1 - x ^ 2);
    let z := r * x;
    let phi_nl := a ^ 3 * (1 + xi) ^ l * (1 - xi) ^ (l + 1) * CC xi N n l * PP l 0 x;
    phi_nl * dVol xi * dens R z) * (2 * π);
  let constants := -(2 : ℝ) ^ (-2 * (l : ℝ)) * (2 * (l : ℝ) + 1) ^ (0.5 : ℝ);
  2 * (Inl n l)⁻¹ * integrated * constants

/-- `constants`, SCFPotential.py:1855-1862: `gammaln` is infinite at the poles, which are the entries with `m > l`. -/
def cFull (l m : ℕ) : ℝ :=
  (if l < m then 0
    else exp (0.5 * log (Gamma ((l : ℝ) - m + 1)) - 0.5 * log (Gamma ((l : ℝ) + m + 1)) - 2 * l * log 2))
    * (2 * (l : ℝ) + 1) ^ (0.5 : ℝ)

/-- `scf_compute_coeffs`, SCFPotential.py:1771-1879: the entry `n, l, m` of `Acos` (`trig = cos`) or `Asin` (`trig = sin`). -/
def coefFull (leg : ℕ → Rule) (trig : ℝ → ℝ) (dens : ℝ → ℝ → ℝ → ℝ) (N L : ℕ) (a : ℝ) (radial_order costheta_order : Option ℕ)
    (n l m : ℕ) : ℝ :=
  let integrated := quad3 leg (orderR N L radial_order) (orderC L costheta_order) (-1) 1 (-1) 1 fun xi x φ =>
    let r := xiToR xi a;
    let R := r * √(1 - x ^ 2);
    let z := r * x;
    let phi_nl := -a ^ 3 * (1 + xi) ^ l * (1 - xi) ^ (l + 1) * CC xi N n l * PP l m x;
    dens R z φ * phi_nl * trig (m * φ) * dVol xi;
  2 * (Inl n l)⁻¹ * integrated * cFull l m

/-! ### Particles -/

/-- A particle: a column of `pos` and its mass. -/
structure Particle where
  x : ℝ
  y : ℝ
  z : ℝ
  m : ℝ

/-- `r`, SCFPotential.py:1320, 1429, 1579. -/
def Particle.r (q : Particle) : ℝ := √(q.x ^ 2 + q.y ^ 2 + q.z ^ 2)
/-- `phi`, SCFPotential.py:1580. -/
def Particle.phi (q : Particle) : ℝ := Coords.atan2 q.y q.x
/-- `costheta`, SCFPotential.py:1430, 1581. -/
def Particle.costheta (q : Particle) : ℝ := q.z / q.r

/-- `scf_compute_coeffs_spherical_nbody`, SCFPotential.py:1292-1325. -/
def nbodySpher (ps : List Particle) (N : ℕ) (a : ℝ) (n : ℕ) : ℝ :=
  let RhoSum := (ps.map fun q => q.m / (1 + q.r / a) * CC (RToxi q.r a) N n 0).sum;
  let K := 4 * ((n : ℝ) + 3 / 2) / (((n : ℝ) + 2) * (n + 1) * (1 + n * (n + 3) / 2));
  2 * K * RhoSum

/-- `Inl`, SCFPotential.py:1590-1599 (and lines 1438-1446). -/
def InlB (n l : ℕ) : ℝ :=
  -Knl n l * 2 * π / 2 ^ (8 * (l : ℝ) + 6) * Gamma ((n : ℝ) + 4 * l + 3) / Gamma ((n : ℝ) + 1) / ((n : ℝ) + 2 * l + 1.5)
    / Gamma (2 * (l : ℝ) + 1.5) ^ 2

/-- The pair `Plm, Plmm1` at the start of pass `ll = m + j` of the loops, SCFPotential.py:1450-1463, 1604-1626. -/
def plm (m : ℕ) (x Pll : ℝ) : ℕ → ℝ × ℝ
  | 0 => (Pll, 0)
  | j + 1 =>
    let s := plm m x Pll j;
    let ll : ℝ := (m : ℝ) + j;
    (((2 * ll + 1) * x * s.1 - (ll + m) * s.2) / (ll - m + 1), s.1)

/-- `Pll` in pass `mm` of the loop, SCFPotential.py:1585, 1628. -/
def pll (x : ℝ) : ℕ → ℝ
  | 0 => 1
  | m + 1 => pll x m * (-(2 * (m : ℝ) + 1) * √(1 - x ^ 2))

/-- `phinlm`, SCFPotential.py:1454-1455, 1608-1609. -/
def phinlm (N : ℕ) (a : ℝ) (n l m : ℕ) (q : Particle) : ℝ :=
  -((q.r / a) ^ l) / (1 + q.r / a) ^ (2 * l + 1) * CC (RToxi q.r a) N n l * (plm m q.costheta (pll q.costheta m) (l - m)).1

/-- `scf_compute_coeffs_axi_nbody`, SCFPotential.py:1403-1464: the entry `Acos[n, l, 0]`. -/
def nbodyAxi (ps : List Particle) (N : ℕ) (a : ℝ) (n l : ℕ) : ℝ :=
  let Inl := InlB n l / √(2 * (l : ℝ) + 1);
  (ps.map fun q => q.m * phinlm N a n l 0 q).sum / Inl

/-- `scf_compute_coeffs_nbody`, SCFPotential.py:1552-1629: the entry `n, l, m` of `Acos` (`trig = cos`) or `Asin`. -/
def nbodyFull (trig : ℝ → ℝ) (ps : List Particle) (N : ℕ) (a : ℝ) (n l m : ℕ) : ℝ :=
  if l < m then 0
  else
    let Sum := √((2 * (l : ℝ) + 1) * Gamma ((l : ℝ) - m + 1) / Gamma ((l : ℝ) + m + 1))
      * (ps.map fun q => q.m * trig (q.phi * m) * phinlm N a n l m q).sum;
    Sum / InlB n l

/-- The symmetries. -/
inductive Sym where
  | spher | axi | none

/-- `_nbody_symmetry_coeffs`, SCFPotential.py:1655-1667: `Acos` and `Asin`. -/
def nbodyCoef (s : Sym) (ps : List Particle) (N : ℕ) (a : ℝ) : Coef :=
  match s with
  | .spher => ⟨fun n _ _ => nbodySpher ps N a n, fun _ _ _ => 0⟩
  | .axi => ⟨fun n l _ => nbodyAxi ps N a n l, fun _ _ _ => 0⟩
  | .none => ⟨nbodyFull cos ps N a, nbodyFull sin ps N a⟩

/-- `_nbody_batch_size`, SCFPotential.py:1670-1679; `bytes` is `_NBODY_BATCH_BYTES`. -/
def batchSize (bytes n N : ℕ) : ℕ := min n (max 1 (bytes / (max N 1 * 8 * 4)))

/-- The loop of `_batched_nbody`, SCFPotential.py:1697-1704: `acc` is `None` before the first pass. -/
def batchLoop (f : List Particle → Coef) (b : ℕ) (hb : 0 < b) (acc : Option Coef) (ps : List Particle) : Option Coef :=
  if h : ps = [] then acc
  else
    let c := f (ps.take b);
    let acc := match acc with
      | Option.none => c
      | some d => ⟨fun n l m => d.c n l m + c.c n l m, fun n l m => d.s n l m + c.s n l m⟩;
    have : (ps.drop b).length < ps.length := by
      rw [List.length_drop]
      have := List.length_pos_iff.2 h
      omega
    batchLoop f b hb (some acc) (ps.drop b)
termination_by ps.length

/-- `_batched_nbody`, SCFPotential.py:1682-1705; no particles give a step of zero, on which `range` raises, here `none`. -/
def batched (bytes : ℕ) (s : Sym) (ps : List Particle) (N : ℕ) (a : ℝ) : Option Coef :=
  if h : ps = [] then Option.none
  else batchLoop (fun ps => nbodyCoef s ps N a) (batchSize bytes ps.length N)
    (by have := List.length_pos_iff.2 h; unfold batchSize; omega) Option.none ps

/-- `_batched_timedep`, SCFPotential.py:1910-1934: `compute` on slices of the time grid, concatenated; `elems` is `per_time_elems`
and `bytes` is `_TIMEDEP_BATCH_BYTES`. -/
def timeLoop {α : Type} (compute : List ℝ → List α) (b : ℕ) (hb : 0 < b) (ts : List ℝ) : List α :=
  if h : ts = [] then []
  else
    have : (ts.drop b).length < ts.length := by
      rw [List.length_drop]
      have := List.length_pos_iff.2 h
      omega
    compute (ts.take b) ++ timeLoop compute b hb (ts.drop b)
termination_by ts.length

/-- `_batched_timedep` with `_timedep_batch_size`, SCFPotential.py:1898-1934. -/
def batchedTime {α : Type} (bytes elems : ℕ) (compute : List ℝ → List α) (ts : List ℝ) : List α :=
  let batch := min ts.length (max 1 (bytes / (elems * 8)));
  if h : ts.length ≤ batch then compute ts
  else timeLoop compute batch (by omega) ts

end Verif.SCF
