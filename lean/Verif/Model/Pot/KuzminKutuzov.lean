import Verif.Util.PotLemmas
import Verif.Model.Coords

set_option autoImplicit false

/-!
# KuzminKutuzovStaeckelPotential

`galpy/potential/KuzminKutuzovStaeckelPotential.py` and `potential_c_ext/KuzminKutuzovStaeckelPotential.c`.
Python methods are without `amp`; C functions include it. `l**1.5` is the real power.
The class has no `_dens`: `Potential.dens` falls back on the Poisson equation (Potential.py:605-621).
-/

noncomputable section
namespace Verif.KuzminKutuzov
open Real Coords

/-- `_lderiv`, KuzminKutuzovStaeckelPotential.py:132-152. -/
def lderiv (l n : ℝ) : ℝ := 0.5 / √l / (√l + √n) ^ 2
/-- `_nderiv`, KuzminKutuzovStaeckelPotential.py:154-175. -/
def nderiv (l n : ℝ) : ℝ := 0.5 / √n / (√l + √n) ^ 2
/-- `_l2deriv`, KuzminKutuzovStaeckelPotential.py:177-200. -/
def l2deriv (l n : ℝ) : ℝ :=
  let number := -3 * √l - √n;
  let denom := 4 * l ^ (3/2 : ℝ) * (√l + √n) ^ 3;
  number / denom
/-- `_n2deriv`, KuzminKutuzovStaeckelPotential.py:202-225. -/
def n2deriv (l n : ℝ) : ℝ :=
  let number := -√l - 3 * √n;
  let denom := 4 * n ^ (3/2 : ℝ) * (√l + √n) ^ 3;
  number / denom
/-- `_lnderiv`, KuzminKutuzovStaeckelPotential.py:227-250. -/
def lnderiv (l n : ℝ) : ℝ := -0.5 / (√l * √n * (√l + √n) ^ 3)

/-- `_evaluate`, KuzminKutuzovStaeckelPotential.py:64-66. -/
def evaluate (ac D R z : ℝ) : ℝ :=
  let q := Rz_to_lambdanu R z ac D;
  -1 / (√q.1 + √q.2)
/-- `_Rforce`, KuzminKutuzovStaeckelPotential.py:68-73. -/
def Rforce (ac D R z : ℝ) : ℝ :=
  let q := Rz_to_lambdanu R z ac D;
  let jac := Rz_to_lambdanu_jac R z D;
  -(jac 0 0 * lderiv q.1 q.2 + jac 1 0 * nderiv q.1 q.2)
/-- `_zforce`, KuzminKutuzovStaeckelPotential.py:75-80. -/
def zforce (ac D R z : ℝ) : ℝ :=
  let q := Rz_to_lambdanu R z ac D;
  let jac := Rz_to_lambdanu_jac R z D;
  -(jac 0 1 * lderiv q.1 q.2 + jac 1 1 * nderiv q.1 q.2)
/-- `_R2deriv`, KuzminKutuzovStaeckelPotential.py:82-96. -/
def R2deriv (ac D R z : ℝ) : ℝ :=
  let q := Rz_to_lambdanu R z ac D;
  let jac := Rz_to_lambdanu_jac R z D;
  let hess := Rz_to_lambdanu_hess R z D;
  let dldR := jac 0 0;
  let dndR := jac 1 0;
  hess.1 0 0 * lderiv q.1 q.2 + hess.2 0 0 * nderiv q.1 q.2 + dldR ^ 2 * l2deriv q.1 q.2
    + dndR ^ 2 * n2deriv q.1 q.2 + 2 * dldR * dndR * lnderiv q.1 q.2
/-- `_z2deriv`, KuzminKutuzovStaeckelPotential.py:98-112. -/
def z2deriv (ac D R z : ℝ) : ℝ :=
  let q := Rz_to_lambdanu R z ac D;
  let jac := Rz_to_lambdanu_jac R z D;
  let hess := Rz_to_lambdanu_hess R z D;
  let dldz := jac 0 1;
  let dndz := jac 1 1;
  hess.1 1 1 * lderiv q.1 q.2 + hess.2 1 1 * nderiv q.1 q.2 + dldz ^ 2 * l2deriv q.1 q.2
    + dndz ^ 2 * n2deriv q.1 q.2 + 2 * dldz * dndz * lnderiv q.1 q.2
/-- `_Rzderiv`, KuzminKutuzovStaeckelPotential.py:114-130. -/
def Rzderiv (ac D R z : ℝ) : ℝ :=
  let q := Rz_to_lambdanu R z ac D;
  let jac := Rz_to_lambdanu_jac R z D;
  let hess := Rz_to_lambdanu_hess R z D;
  let dldR := jac 0 0;
  let dndR := jac 1 0;
  let dldz := jac 0 1;
  let dndz := jac 1 1;
  hess.1 0 1 * lderiv q.1 q.2 + hess.2 0 1 * nderiv q.1 q.2 + dldR * dldz * l2deriv q.1 q.2
    + dndR * dndz * n2deriv q.1 q.2 + (dldR * dndz + dldz * dndR) * lnderiv q.1 q.2
/-- `Potential.dens` when the class has no `_dens` (Potential.py:605-621). -/
def dens (ac D R z : ℝ) : ℝ := (-Rforce ac D R z / R + R2deriv ac D R z + z2deriv ac D R z) / 4 / π

/-- The Python class as a record of methods. -/
def pot (ac D : ℝ) : Pot :=
  Pot.axi (evaluate ac D) (Rforce ac D) (zforce ac D) (R2deriv ac D) (z2deriv ac D) (Rzderiv ac D) (dens ac D)

/-! ### C -/

/-- The coordinate transformation at the start of each C function, e.g. KuzminKutuzovStaeckelPotential.c:14-20. -/
def cln (ac D R z : ℝ) : ℝ × ℝ :=
  let gamma := D * D / (1 - ac * ac);
  let alpha := gamma - D * D;
  let term := R * R + z * z - alpha - gamma;
  let discr := (R * R + z * z - D * D) ^ 2 + 4 * D * D * R * R;
  (0.5 * (term + √discr), 0.5 * (term - √discr))
/-- `KuzminKutuzovStaeckelPotentialEval`, KuzminKutuzovStaeckelPotential.c:5-24: `n` is clamped at 0. -/
def cEval (amp ac D R z : ℝ) : ℝ :=
  let l := (cln ac D R z).1;
  let n := (cln ac D R z).2;
  let n := if 0 < n then n else 0;
  -amp / (√l + √n)
/-- `KuzminKutuzovStaeckelPotentialRforce`, KuzminKutuzovStaeckelPotential.c:25-47. -/
def cRforce (amp ac D R z : ℝ) : ℝ :=
  let l := (cln ac D R z).1;
  let n := (cln ac D R z).2;
  let discr := (R * R + z * z - D * D) ^ 2 + 4 * D * D * R * R;
  let dldR := R * (1 + (R * R + z * z + D * D) / √discr);
  let dndR := R * (1 - (R * R + z * z + D * D) / √discr);
  let dVdl := 0.5 / √l / (√l + √n) ^ 2;
  let dVdn := 0.5 / √n / (√l + √n) ^ 2;
  -amp * (dldR * dVdl + dndR * dVdn)
/-- `KuzminKutuzovStaeckelPotentialPlanarRforce`, KuzminKutuzovStaeckelPotential.c:48-65. -/
def cPlanarRforce (amp ac D R : ℝ) : ℝ :=
  let gamma := D * D / (1 - ac * ac);
  let alpha := gamma - D * D;
  let l := R * R - alpha;
  let n := -gamma;
  let dldR := 2 * R;
  let dVdl := 0.5 / √l / (√l + √n) ^ 2;
  -amp * dldR * dVdl
/-- `KuzminKutuzovStaeckelPotentialzforce`, KuzminKutuzovStaeckelPotential.c:66-88. -/
def czforce (amp ac D R z : ℝ) : ℝ :=
  let l := (cln ac D R z).1;
  let n := (cln ac D R z).2;
  let discr := (R * R + z * z - D * D) ^ 2 + 4 * D * D * R * R;
  let dldz := z * (1 + (R * R + z * z - D * D) / √discr);
  let dndz := z * (1 - (R * R + z * z - D * D) / √discr);
  let dVdl := 0.5 / √l / (√l + √n) ^ 2;
  let dVdn := 0.5 / √n / (√l + √n) ^ 2;
  -amp * (dldz * dVdl + dndz * dVdn)
/-- `KuzminKutuzovStaeckelPotentialPlanarR2deriv`, KuzminKutuzovStaeckelPotential.c:89-108. -/
def cPlanarR2deriv (amp ac D R : ℝ) : ℝ :=
  let gamma := D * D / (1 - ac * ac);
  let alpha := gamma - D * D;
  let l := R * R - alpha;
  let n := -gamma;
  let dldR := 2 * R;
  let d2ldR2 := 2;
  let dVdl := 0.5 / √l / (√l + √n) ^ 2;
  let d2Vdl2 := (-3 * √l - √n) / (4 * l ^ (3/2 : ℝ) * (√l + √n) ^ 3);
  amp * (d2ldR2 * dVdl + dldR * dldR * d2Vdl2)

/-- The derivatives with respect to `(l, n)` as written in the three C Hessian functions, e.g.
KuzminKutuzovStaeckelPotential.c:147-157: `dVdl, dVdn, d2Vdl2, d2Vdn2, d2Vdln` combined with the coefficients. -/
def cComb (l n a₁ a₂ a₃ a₄ a₅ : ℝ) : ℝ :=
  let srl := √l;
  let srn := √n;
  let sln := srl + srn;
  let isln2 := 1 / (sln * sln);
  let isln3 := isln2 / sln;
  let dVdl := 0.5 / srl * isln2;
  let dVdn := 0.5 / srn * isln2;
  let d2Vdl2 := (-3 * srl - srn) / (4 * l * srl) * isln3;
  let d2Vdn2 := (-srl - 3 * srn) / (4 * n * srn) * isln3;
  let d2Vdln := -0.5 / (srl * srn) * isln3;
  a₁ * dVdl + a₂ * dVdn + a₃ * d2Vdl2 + a₄ * d2Vdn2 + a₅ * d2Vdln
/-- `KuzminKutuzovStaeckelPotentialR2deriv`, KuzminKutuzovStaeckelPotential.c:111-162. -/
def cR2deriv (amp ac D R z : ℝ) : ℝ :=
  let D2 := D * D;
  let R2 := R * R;
  let z2 := z * z;
  let rzD2p := R2 + z2 + D2;
  let rzmD2 := R2 + z2 - D2;
  let discr := rzmD2 * rzmD2 + 4 * D2 * R2;
  let sdiscr := √discr;
  let isdiscr := 1 / sdiscr;
  let idiscr15 := isdiscr / discr;
  let gamma := D2 / (1 - ac * ac);
  let alpha := gamma - D2;
  let term := R2 + z2 - alpha - gamma;
  let l := 0.5 * (term + sdiscr);
  let n := 0.5 * (term - sdiscr);
  let rzD2p_isd := rzD2p * isdiscr;
  let dldR := R * (1 + rzD2p_isd);
  let dndR := R * (1 - rzD2p_isd);
  let hess_off := (3 * R2 + z2 + D2) * isdiscr;
  let hess_cub := 2 * R2 * rzD2p * rzD2p * idiscr15;
  let d2ldR2 := 1 + hess_off - hess_cub;
  let d2ndR2 := 1 - hess_off + hess_cub;
  amp * cComb l n d2ldR2 d2ndR2 (dldR * dldR) (dndR * dndR) (2 * dldR * dndR)
/-- `KuzminKutuzovStaeckelPotentialz2deriv`, KuzminKutuzovStaeckelPotential.c:163-213. -/
def cz2deriv (amp ac D R z : ℝ) : ℝ :=
  let D2 := D * D;
  let R2 := R * R;
  let z2 := z * z;
  let rzmD2 := R2 + z2 - D2;
  let discr := rzmD2 * rzmD2 + 4 * D2 * R2;
  let sdiscr := √discr;
  let isdiscr := 1 / sdiscr;
  let idiscr15 := isdiscr / discr;
  let gamma := D2 / (1 - ac * ac);
  let alpha := gamma - D2;
  let term := R2 + z2 - alpha - gamma;
  let l := 0.5 * (term + sdiscr);
  let n := 0.5 * (term - sdiscr);
  let rzmD2_isd := rzmD2 * isdiscr;
  let dldz := z * (1 + rzmD2_isd);
  let dndz := z * (1 - rzmD2_isd);
  let hess_off := (R2 + 3 * z2 - D2) * isdiscr;
  let hess_cub := 2 * z2 * rzmD2 * rzmD2 * idiscr15;
  let d2ldz2 := 1 + hess_off - hess_cub;
  let d2ndz2 := 1 - hess_off + hess_cub;
  amp * cComb l n d2ldz2 d2ndz2 (dldz * dldz) (dndz * dndz) (2 * dldz * dndz)
/-- `KuzminKutuzovStaeckelPotentialRzderiv`, KuzminKutuzovStaeckelPotential.c:214-269. -/
def cRzderiv (amp ac D R z : ℝ) : ℝ :=
  let D2 := D * D;
  let D4 := D2 * D2;
  let R2 := R * R;
  let z2 := z * z;
  let rz2 := R2 + z2;
  let rzD2p := rz2 + D2;
  let rzmD2 := rz2 - D2;
  let discr := rzmD2 * rzmD2 + 4 * D2 * R2;
  let sdiscr := √discr;
  let isdiscr := 1 / sdiscr;
  let idiscr := 1 / discr;
  let gamma := D2 / (1 - ac * ac);
  let alpha := gamma - D2;
  let term := rz2 - alpha - gamma;
  let l := 0.5 * (term + sdiscr);
  let n := 0.5 * (term - sdiscr);
  let rzD2p_isd := rzD2p * isdiscr;
  let rzmD2_isd := rzmD2 * isdiscr;
  let dldR := R * (1 + rzD2p_isd);
  let dndR := R * (1 - rzD2p_isd);
  let dldz := z * (1 + rzmD2_isd);
  let dndz := z * (1 - rzmD2_isd);
  let mix := 2 * R * z * isdiscr * (1 - (rz2 * rz2 - D4) * idiscr);
  amp * cComb l n mix (-mix) (dldR * dldz) (dndR * dndz) (dldR * dndz + dldz * dndR)

end Verif.KuzminKutuzov
