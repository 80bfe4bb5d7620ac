import Mathlib.Analysis.SpecialFunctions.Complex.Arg
import Mathlib.Analysis.SpecialFunctions.Trigonometric.Inverse
import Mathlib.Analysis.SpecialFunctions.Arcosh
import Mathlib.Analysis.SpecialFunctions.Sqrt
import Mathlib.LinearAlgebra.Matrix.Notation
import Mathlib.Data.Sign.Basic

set_option autoImplicit false

/-!
# Coordinate transformations

`galpy/util/coords.py`, one array element at a time (every operation there is elementwise).  The module
uses its own formulas when the configuration switches astropy coordinates off or astropy is missing; the
astropy calls are not modelled.  Angles are in radians; the `degree` keyword is the decorator at the end of
the file.  Points and velocities are vectors `Fin 3 → ℝ`.
-/

noncomputable section
namespace Verif.Coords
open Real

/-- `numpy.arctan2`, without signed zeros. -/
def atan2 (y x : ℝ) : ℝ := Complex.arg ⟨x, y⟩

/-- `l[l < 0.0] += 2.0 * numpy.pi`. -/
def wrap (l : ℝ) : ℝ := if l < 0 then l + 2 * π else l

/-- `numpy.sign`. -/
def sgn (x : ℝ) : ℝ := if 0 < x then 1 else if x < 0 then -1 else 0

/-- The three angles `theta, dec_ngp, ra_ngp` of `get_epoch_angles`, coords.py:3013-3069. -/
structure Epoch where
  theta : ℝ
  dec_ngp : ℝ
  ra_ngp : ℝ

/-- `get_epoch_angles(2000.0)`, coords.py:3033-3037. -/
def epoch2000 : Epoch := ⟨122.9319185680026 / 180 * π, 27.12825118085622 / 180 * π, 192.8594812065348 / 180 * π⟩
/-- `get_epoch_angles(1950.0)`, coords.py:3038-3041. -/
def epoch1950 : Epoch := ⟨123 / 180 * π, 27.4 / 180 * π, 192.25 / 180 * π⟩

/-! ### Sky -/

/-- The matrix `T` of `radec_to_lb`, coords.py:219-243. -/
def radecT (e : Epoch) : Matrix (Fin 3) (Fin 3) ℝ :=
  !![cos e.theta, sin e.theta, 0; sin e.theta, -cos e.theta, 0; 0, 0, 1] *
    (!![-sin e.dec_ngp, 0, cos e.dec_ngp; 0, 1, 0; cos e.dec_ngp, 0, sin e.dec_ngp] *
      !![cos e.ra_ngp, sin e.ra_ngp, 0; -sin e.ra_ngp, cos e.ra_ngp, 0; 0, 0, 1])

/-- The matrix `T` of `lb_to_radec`, coords.py:298-322. -/
def lbT (e : Epoch) : Matrix (Fin 3) (Fin 3) ℝ :=
  !![cos e.ra_ngp, -sin e.ra_ngp, 0; sin e.ra_ngp, cos e.ra_ngp, 0; 0, 0, 1] *
    (!![-sin e.dec_ngp, 0, cos e.dec_ngp; 0, 1, 0; cos e.dec_ngp, 0, sin e.dec_ngp] *
      !![cos e.theta, sin e.theta, 0; sin e.theta, -cos e.theta, 0; 0, 0, 1])

/-- The vector `XYZ` built by `radec_to_lb`, `lb_to_radec`, `radec_to_custom`, coords.py:245-247, 324-326,
2774-2776. -/
def skyXYZ (a d : ℝ) : Fin 3 → ℝ := ![cos d * cos a, cos d * sin a, sin d]

/-- `radec_to_lb`, coords.py:184-255. -/
def radec_to_lb (e : Epoch) (ra dec : ℝ) : ℝ × ℝ :=
  let g := (radecT e).mulVec (skyXYZ ra dec);
  let g2 := if 1 < g 2 then 1 else g 2;
  let g2 := if g2 < -1 then -1 else g2;
  let b := arcsin g2;
  let l := atan2 (g 1 / cos b) (g 0 / cos b);
  (wrap l, b)

/-- `lb_to_radec`, coords.py:260-331. -/
def lb_to_radec (e : Epoch) (l b : ℝ) : ℝ × ℝ :=
  let q := (lbT e).mulVec (skyXYZ l b);
  (wrap (atan2 (q 1) (q 0)), arcsin (q 2))

/-- `radec_to_custom`, coords.py:2745-2782. -/
def radec_to_custom (T : Matrix (Fin 3) (Fin 3) ℝ) (ra dec : ℝ) : ℝ × ℝ :=
  let g := T.mulVec (skyXYZ ra dec);
  (wrap (atan2 (g 1) (g 0)), arcsin (g 2))

/-- `custom_to_radec`, coords.py:2839-2870. -/
def custom_to_radec (T : Matrix (Fin 3) (Fin 3) ℝ) (phi1 phi2 : ℝ) : ℝ × ℝ :=
  radec_to_custom T.transpose phi1 phi2

/-- `cosphi` and `sinphi` for the pole `(ra_ngp, dec_ngp)`, coords.py:651-665, 708-722, 2821-2832, with
the shift of `dec` at line 651. -/
def pmAngles (dec_ngp ra_ngp ra dec : ℝ) : ℝ × ℝ :=
  let dec := if dec = dec_ngp then dec + 10 ^ (-16 : ℤ) else dec;
  let cosphi := sin dec_ngp * cos dec - cos dec_ngp * sin dec * cos (ra - ra_ngp);
  let sinphi := sin (ra - ra_ngp) * cos dec_ngp;
  let norm := sqrt (cosphi ^ 2 + sinphi ^ 2);
  (cosphi / norm, sinphi / norm)

/-- `pmrapmdec_to_pmllpmbb`, coords.py:620-669. -/
def pmrapmdec_to_pmllpmbb (e : Epoch) (pmra pmdec ra dec : ℝ) : ℝ × ℝ :=
  let a := pmAngles e.dec_ngp e.ra_ngp ra dec;
  (a.1 * pmra + a.2 * pmdec, -a.2 * pmra + a.1 * pmdec)

/-- `pmllpmbb_to_pmrapmdec`, coords.py:674-726. -/
def pmllpmbb_to_pmrapmdec (e : Epoch) (pmll pmbb l b : ℝ) : ℝ × ℝ :=
  let radec := lb_to_radec e l b;
  let a := pmAngles e.dec_ngp e.ra_ngp radec.1 radec.2;
  (a.1 * pmll + -a.2 * pmbb, a.2 * pmll + a.1 * pmbb)

/-- `pmrapmdec_to_custom`, coords.py:2787-2836. -/
def pmrapmdec_to_custom (T : Matrix (Fin 3) (Fin 3) ℝ) (pmra pmdec ra dec : ℝ) : ℝ × ℝ :=
  let p := custom_to_radec T 0 (π / 2);
  let a := pmAngles p.2 p.1 ra dec;
  (a.1 * pmra + a.2 * pmdec, -a.2 * pmra + a.1 * pmdec)

/-- `custom_to_pmrapmdec`, coords.py:2873-2910. -/
def custom_to_pmrapmdec (T : Matrix (Fin 3) (Fin 3) ℝ) (pmphi1 pmphi2 phi1 phi2 : ℝ) : ℝ × ℝ :=
  pmrapmdec_to_custom T.transpose pmphi1 pmphi2 phi1 phi2

/-- `cov_pmrapmdec_to_pmllpmbb`, coords.py:729-793, one matrix. The branch for degrees converts the same
angles. -/
def cov_pmrapmdec_to_pmllpmbb (e : Epoch) (cov : Matrix (Fin 2) (Fin 2) ℝ) (ra dec : ℝ) :
    Matrix (Fin 2) (Fin 2) ℝ :=
  let cosphi := sin e.dec_ngp * cos dec - cos e.dec_ngp * sin dec * cos (ra - e.ra_ngp);
  let sinphi := sin (ra - e.ra_ngp) * cos e.dec_ngp;
  let norm := sqrt (cosphi ^ 2 + sinphi ^ 2);
  let cosphi := cosphi / norm;
  let sinphi := sinphi / norm;
  let P := !![cosphi, sinphi; -sinphi, cosphi];
  P * (cov * P.transpose)

/-! ### Heliocentric rectangular -/

/-- `lbd_to_XYZ`, coords.py:336-369. -/
def lbd_to_XYZ (l b d : ℝ) : Fin 3 → ℝ := ![d * cos b * cos l, d * cos b * sin l, d * sin b]

/-- `XYZ_to_lbd`, coords.py:581-615. -/
def XYZ_to_lbd (X Y Z : ℝ) : Fin 3 → ℝ :=
  let d := sqrt (X ^ 2 + Y ^ 2 + Z ^ 2);
  let b := arcsin (Z / d);
  let l := wrap (atan2 Y X);
  ![l, b, d]

/-- The array `R` of `vrpmllpmbb_to_vxvyvz`, coords.py:500-508; that of `vxvyvz_to_vrpmllpmbb`, 563-571,
is its transpose. -/
def lbR (l b : ℝ) : Matrix (Fin 3) (Fin 3) ℝ :=
  !![cos l * cos b, sin l * cos b, sin b; -sin l, cos l, 0; -cos l * sin b, -sin l * sin b, cos b]

/-- `vrpmllpmbb_to_vxvyvz` with `XYZ=False`, coords.py:458-516; `K` is the constant `_K`. The sum is over
the first index of `R`. -/
def vrpmllpmbb_to_vxvyvz (K vr pmll pmbb l b d : ℝ) : Fin 3 → ℝ := fun j =>
  lbR l b 0 j * vr + lbR l b 1 j * (d * pmll * K) + lbR l b 2 j * (d * pmbb * K)

/-- The same with `XYZ=True`, coords.py:492-499. -/
def vrpmllpmbb_to_vxvyvz_XYZ (K vr pmll pmbb X Y Z : ℝ) : Fin 3 → ℝ :=
  let lbd := XYZ_to_lbd X Y Z;
  vrpmllpmbb_to_vxvyvz K vr pmll pmbb (lbd 0) (lbd 1) (lbd 2)

/-- `vxvyvz_to_vrpmllpmbb` with `XYZ=False`, coords.py:521-576. -/
def vxvyvz_to_vrpmllpmbb (K vx vy vz l b d : ℝ) : Fin 3 → ℝ :=
  let r : Matrix (Fin 3) (Fin 3) ℝ :=
    !![cos l * cos b, -sin l, -cos l * sin b; sin l * cos b, cos l, -sin l * sin b; sin b, 0, cos b];
  let v : Fin 3 → ℝ := fun j => r 0 j * vx + r 1 j * vy + r 2 j * vz;
  ![v 0, v 1 / (d * K), v 2 / (d * K)]

/-- The same with `XYZ=True`, coords.py:555-562. -/
def vxvyvz_to_vrpmllpmbb_XYZ (K vx vy vz X Y Z : ℝ) : Fin 3 → ℝ :=
  let lbd := XYZ_to_lbd X Y Z;
  vxvyvz_to_vrpmllpmbb K vx vy vz (lbd 0) (lbd 1) (lbd 2)

/-- `rectgal_to_sphergal`, coords.py:372-412, without degrees: position and velocity parts. -/
def rectgal_to_sphergal (K X Y Z vx vy vz : ℝ) : (Fin 3 → ℝ) × (Fin 3 → ℝ) :=
  (XYZ_to_lbd X Y Z, vxvyvz_to_vrpmllpmbb_XYZ K vx vy vz X Y Z)

/-- `sphergal_to_rectgal`, coords.py:415-453. -/
def sphergal_to_rectgal (K l b d vr pmll pmbb : ℝ) : (Fin 3 → ℝ) × (Fin 3 → ℝ) :=
  (lbd_to_XYZ l b d, vrpmllpmbb_to_vxvyvz K vr pmll pmbb l b d)

/-! ### Galactocentric rectangular -/

/-- The matrix of `XYZ_to_galcenrect` and `vxvyvz_to_galcenrect`, coords.py:1025-1037, 1316-1333. -/
def gcR (Xsun Zsun : ℝ) : Matrix (Fin 3) (Fin 3) ℝ :=
  let dgc := sqrt (Xsun ^ 2 + Zsun ^ 2);
  !![Xsun / dgc, 0, -(Zsun / dgc); 0, 1, 0; Zsun / dgc, 0, Xsun / dgc]

/-- The matrix of `galcenrect_to_XYZ` and `galcenrect_to_vxvyvz`, coords.py:1075-1092, 1436-1452. -/
def gcRinv (Xsun Zsun : ℝ) : Matrix (Fin 3) (Fin 3) ℝ :=
  let dgc := sqrt (Xsun ^ 2 + Zsun ^ 2);
  !![-(Xsun / dgc), 0, -(Zsun / dgc); 0, 1, 0; -sgn Xsun * (Zsun / dgc), 0, sgn Xsun * (Xsun / dgc)]

/-- The effect of `_extra_rot`: `none` when it is off, otherwise the module constant
`galcen_extra_rot`. -/
def rot (E : Option (Matrix (Fin 3) (Fin 3) ℝ)) (v : Fin 3 → ℝ) : Fin 3 → ℝ :=
  match E with
  | some E => E.mulVec v
  | none => v

/-- With the transposed matrix. -/
def rotT (E : Option (Matrix (Fin 3) (Fin 3) ℝ)) (v : Fin 3 → ℝ) : Fin 3 → ℝ :=
  match E with
  | some E => E.transpose.mulVec v
  | none => v

/-- `XYZ_to_galcenrect`, coords.py:989-1039. -/
def XYZ_to_galcenrect (E : Option (Matrix (Fin 3) (Fin 3) ℝ)) (Xsun Zsun : ℝ) (x : Fin 3 → ℝ) : Fin 3 → ℝ :=
  let x := rot E x;
  let dgc := sqrt (Xsun ^ 2 + Zsun ^ 2);
  (gcR Xsun Zsun).mulVec ![-x 0 + dgc, x 1, sgn Xsun * x 2]

/-- `galcenrect_to_XYZ`, coords.py:1043-1100. -/
def galcenrect_to_XYZ (E : Option (Matrix (Fin 3) (Fin 3) ℝ)) (Xsun Zsun : ℝ) (x : Fin 3 → ℝ) : Fin 3 → ℝ :=
  let dgc := sqrt (Xsun ^ 2 + Zsun ^ 2);
  let out := (gcRinv Xsun Zsun).mulVec x + ![dgc, 0, 0];
  rotT E out

/-- `vxvyvz_to_galcenrect`, coords.py:1279-1337. -/
def vxvyvz_to_galcenrect (E : Option (Matrix (Fin 3) (Fin 3) ℝ)) (vsun : Fin 3 → ℝ) (Xsun Zsun : ℝ)
    (v : Fin 3 → ℝ) : Fin 3 → ℝ :=
  let v := rot E v;
  (gcR Xsun Zsun).mulVec ![-v 0, v 1, sgn Xsun * v 2] + vsun

/-- `galcenrect_to_vxvyvz`, coords.py:1401-1458. -/
def galcenrect_to_vxvyvz (E : Option (Matrix (Fin 3) (Fin 3) ℝ)) (vsun : Fin 3 → ℝ) (Xsun Zsun : ℝ)
    (v : Fin 3 → ℝ) : Fin 3 → ℝ :=
  rotT E ((gcRinv Xsun Zsun).mulVec ![v 0 - vsun 0, v 1 - vsun 1, v 2 - vsun 2])

/-- `cov_vxyz_to_galcenrect`, coords.py:908-944, one matrix. -/
def cov_vxyz_to_galcenrect (Xsun Zsun : ℝ) (cov : Matrix (Fin 3) (Fin 3) ℝ) : Matrix (Fin 3) (Fin 3) ℝ :=
  (gcR Xsun Zsun).transpose * (cov * gcR Xsun Zsun)

/-- `cov_galcenrect_to_galcencyl`, coords.py:947-985, one matrix. -/
def cov_galcenrect_to_galcencyl (cov : Matrix (Fin 3) (Fin 3) ℝ) (phi : ℝ) : Matrix (Fin 3) (Fin 3) ℝ :=
  let R := !![cos phi, sin phi, 0; -sin phi, cos phi, 0; 0, 0, 1];
  R * (cov * R.transpose)

/-- `cov_vxyz_to_galcencyl`, coords.py:878-905. -/
def cov_vxyz_to_galcencyl (cov : Matrix (Fin 3) (Fin 3) ℝ) (phi Xsun Zsun : ℝ) : Matrix (Fin 3) (Fin 3) ℝ :=
  cov_galcenrect_to_galcencyl (cov_vxyz_to_galcenrect Xsun Zsun cov) phi

/-- `cov_dvrpmllbb_to_vxyz`, coords.py:796-875, one object; `plx` is handled by the first two lines. -/
def cov_dvrpmllbb_to_vxyz (K d e_d e_vr pmll pmbb : ℝ) (cov : Matrix (Fin 2) (Fin 2) ℝ) (l b : ℝ) (plx : Bool) :
    Matrix (Fin 3) (Fin 3) ℝ :=
  let d := if plx then 1 / d else d;
  let e_d := if plx then e_d * d ^ 2 else e_d;
  let M : Matrix (Fin 2) (Fin 3) ℝ := K • !![pmll, d, 0; pmbb, 0, d];
  let c : Matrix (Fin 3) (Fin 3) ℝ := !![e_d ^ 2, 0, 0; 0, cov 0 0, cov 0 1; 0, cov 1 0, cov 1 1];
  let w := M * (c * M.transpose);
  let cv : Matrix (Fin 3) (Fin 3) ℝ := !![e_vr ^ 2, 0, 0; 0, w 0 0, w 0 1; 0, w 1 0, w 1 1];
  (lbR l b).transpose * (cv * lbR l b)

/-! ### Cylindrical and spherical -/

/-- `rect_to_cyl`, coords.py:1103-1126. -/
def rect_to_cyl (X Y Z : ℝ) : ℝ × ℝ × ℝ := (sqrt (X ^ 2 + Y ^ 2), atan2 Y X, Z)
/-- `cyl_to_rect`, coords.py:1129-1151. -/
def cyl_to_rect (R phi Z : ℝ) : ℝ × ℝ × ℝ := (R * cos phi, R * sin phi, Z)
/-- `cyl_to_spher`, coords.py:1154-1178. -/
def cyl_to_spher (R Z phi : ℝ) : ℝ × ℝ × ℝ := (sqrt (R ^ 2 + Z ^ 2), atan2 R Z, phi)
/-- `spher_to_cyl`, coords.py:1181-1205. -/
def spher_to_cyl (r theta phi : ℝ) : ℝ × ℝ × ℝ := (r * sin theta, r * cos theta, phi)
/-- `cyl_to_spher_vec`, coords.py:1504-1536. -/
def cyl_to_spher_vec (vR vT vz R z : ℝ) : ℝ × ℝ × ℝ :=
  let r := sqrt (R ^ 2 + z ^ 2);
  ((R * vR + z * vz) / r, vT, (z * vR - R * vz) / r)
/-- `spher_to_cyl_vec`, coords.py:1539-1565. -/
def spher_to_cyl_vec (vr vT vtheta theta : ℝ) : ℝ × ℝ × ℝ :=
  (vr * sin theta + vtheta * cos theta, vT, vr * cos theta - vtheta * sin theta)
/-- `rect_to_cyl_vec`, coords.py:1568-1605, with rectangular position (`cyl=False`). -/
def rect_to_cyl_vec (vx vy vz X Y Z : ℝ) : ℝ × ℝ × ℝ :=
  let phi := (rect_to_cyl X Y Z).2.1;
  (vx * cos phi + vy * sin phi, -vx * sin phi + vy * cos phi, vz)
/-- `rect_to_cyl_vec` with `cyl=True`: the second position argument is the azimuth. -/
def rect_to_cyl_vec_cyl (vx vy vz phi : ℝ) : ℝ × ℝ × ℝ :=
  (vx * cos phi + vy * sin phi, -vx * sin phi + vy * cos phi, vz)
/-- `cyl_to_rect_vec`, coords.py:1608-1634. -/
def cyl_to_rect_vec (vr vt vz phi : ℝ) : ℝ × ℝ × ℝ := (vr * cos phi - vt * sin phi, vr * sin phi + vt * cos phi, vz)

/-- `galcencyl_to_galcenrect`, coords.py:1949-1972, one row. -/
def galcencyl_to_galcenrect (R vR vT z vz phi : ℝ) : Fin 6 → ℝ :=
  let x := cyl_to_rect R phi z;
  let v := cyl_to_rect_vec vR vT vz phi;
  ![x.1, x.2.1, x.2.2, v.1, v.2.1, v.2.2]

/-- `XYZ_to_galcencyl`, coords.py:1209-1241. -/
def XYZ_to_galcencyl (E : Option (Matrix (Fin 3) (Fin 3) ℝ)) (Xsun Zsun : ℝ) (x : Fin 3 → ℝ) : ℝ × ℝ × ℝ :=
  let g := XYZ_to_galcenrect E Xsun Zsun x;
  rect_to_cyl (g 0) (g 1) (g 2)

/-- `galcencyl_to_XYZ`, coords.py:1245-1275. -/
def galcencyl_to_XYZ (E : Option (Matrix (Fin 3) (Fin 3) ℝ)) (Xsun Zsun R phi Z : ℝ) : Fin 3 → ℝ :=
  let r := cyl_to_rect R phi Z;
  galcenrect_to_XYZ E Xsun Zsun ![r.1, r.2.1, r.2.2]

/-- `vxvyvz_to_galcencyl`, coords.py:1341-1397, with rectangular Galactocentric position
(`galcen=False`). -/
def vxvyvz_to_galcencyl (E : Option (Matrix (Fin 3) (Fin 3) ℝ)) (vsun : Fin 3 → ℝ) (Xsun Zsun : ℝ)
    (v : Fin 3 → ℝ) (X Y Z : ℝ) : ℝ × ℝ × ℝ :=
  let g := vxvyvz_to_galcenrect E vsun Xsun Zsun v;
  rect_to_cyl_vec (g 0) (g 1) (g 2) X Y Z

/-- `galcencyl_to_vxvyvz`, coords.py:1462-1501. -/
def galcencyl_to_vxvyvz (E : Option (Matrix (Fin 3) (Fin 3) ℝ)) (vsun : Fin 3 → ℝ) (Xsun Zsun vR vT vZ phi : ℝ) :
    Fin 3 → ℝ :=
  let r := cyl_to_rect_vec vR vT vZ phi;
  galcenrect_to_vxvyvz E vsun Xsun Zsun ![r.1, r.2.1, r.2.2]

/-! ### Plane of the disk -/

/-- `dl_to_rphi_2d`, coords.py:2240-2291, without degrees. -/
def dl_to_rphi_2d (ro phio d l : ℝ) : ℝ × ℝ :=
  let R := sqrt (ro ^ 2 + d ^ 2 - 2 * d * ro * cos l);
  let phi := arcsin (d / R * sin l);
  let phi := if ro / cos l < d ∧ 0 < cos l then π - arcsin (d / R * sin l) else phi;
  (R, phi + phio)

/-- `rphi_to_dl_2d`, coords.py:2294-2345, without degrees. -/
def rphi_to_dl_2d (ro phio R phi : ℝ) : ℝ × ℝ :=
  let phi := phi - phio;
  let d := sqrt (R ^ 2 + ro ^ 2 - 2 * R * ro * cos phi);
  let l := arcsin (R / d * sin phi);
  let l := if ro / cos phi < R ∧ 0 < cos phi then π - arcsin (R / d * sin phi) else l;
  (d, l)

/-! ### Spheroidal -/

/-- `Rz_to_coshucosv`, coords.py:2348-2383. -/
def Rz_to_coshucosv (R z delta : ℝ) (oblate : Bool) : ℝ × ℝ :=
  let d12 := if oblate then (R + delta) ^ 2 + z ^ 2 else (z + delta) ^ 2 + R ^ 2;
  let d22 := if oblate then (R - delta) ^ 2 + z ^ 2 else (z - delta) ^ 2 + R ^ 2;
  let coshu := 0.5 / delta * (sqrt d12 + sqrt d22);
  let cosv := 0.5 / delta * (sqrt d12 - sqrt d22);
  (coshu, if oblate then sqrt (1 - cosv ^ 2) else cosv)

/-- `Rz_to_uv`, coords.py:2386-2415. -/
def Rz_to_uv (R z delta : ℝ) (oblate : Bool) : ℝ × ℝ :=
  let c := Rz_to_coshucosv R z delta oblate;
  (arcosh c.1, arccos c.2)

/-- `uv_to_Rz`, coords.py:2418-2450. -/
def uv_to_Rz (u v delta : ℝ) (oblate : Bool) : ℝ × ℝ :=
  if oblate then (delta * cosh u * sin v, delta * sinh u * cos v)
  else (delta * sinh u * sin v, delta * cosh u * cos v)

/-- `vRvz_to_pupv` with `uv=True`, coords.py:2487-2501. -/
def vRvz_to_pupv_uv (vR vz u v delta : ℝ) (oblate : Bool) : ℝ × ℝ :=
  if oblate then
    (delta * (vR * sinh u * sin v + vz * cosh u * cos v), delta * (vR * cosh u * cos v - vz * sinh u * sin v))
  else
    (delta * (vR * cosh u * sin v + vz * sinh u * cos v), delta * (vR * sinh u * cos v - vz * cosh u * sin v))

/-- `vRvz_to_pupv`, coords.py:2453-2501, with `uv=False`. -/
def vRvz_to_pupv (vR vz R z delta : ℝ) (oblate : Bool) : ℝ × ℝ :=
  let w := Rz_to_uv R z delta oblate;
  vRvz_to_pupv_uv vR vz w.1 w.2 delta oblate

/-- `pupv_to_vRvz`, coords.py:2504-2548. -/
def pupv_to_vRvz (pu pv u v delta : ℝ) (oblate : Bool) : ℝ × ℝ :=
  if oblate then
    let denom := delta * (sinh u ^ 2 + cos v ^ 2);
    ((pu * sinh u * sin v + pv * cosh u * cos v) / denom, (pu * cosh u * cos v - pv * sinh u * sin v) / denom)
  else
    let denom := delta * (sinh u ^ 2 + sin v ^ 2);
    ((pu * cosh u * sin v + pv * sinh u * cos v) / denom, (pu * sinh u * cos v - pv * cosh u * sin v) / denom)

/-- `Rz_to_lambdanu`, coords.py:2551-2589. -/
def Rz_to_lambdanu (R z ac Delta : ℝ) : ℝ × ℝ :=
  let g := Delta ^ 2 / (1 - ac ^ 2);
  let a := g - Delta ^ 2;
  let term := R ^ 2 + z ^ 2 - a - g;
  let discr := (R ^ 2 + z ^ 2 - Delta ^ 2) ^ 2 + 4 * Delta ^ 2 * R ^ 2;
  if z = 0 then (R ^ 2 - a, -g)
  else (0.5 * (term + sqrt discr), 0.5 * (term - sqrt discr))

/-- `Rz_to_lambdanu_jac`, coords.py:2592-2629, one point. -/
def Rz_to_lambdanu_jac (R z Delta : ℝ) : Matrix (Fin 2) (Fin 2) ℝ :=
  let discr := (R ^ 2 + z ^ 2 - Delta ^ 2) ^ 2 + 4 * Delta ^ 2 * R ^ 2;
  !![R * (1 + (R ^ 2 + z ^ 2 + Delta ^ 2) / sqrt discr), z * (1 + (R ^ 2 + z ^ 2 - Delta ^ 2) / sqrt discr);
    R * (1 - (R ^ 2 + z ^ 2 + Delta ^ 2) / sqrt discr), z * (1 - (R ^ 2 + z ^ 2 - Delta ^ 2) / sqrt discr)]

/-- `Rz_to_lambdanu_hess`, coords.py:2632-2697, one point: the Hessians of `lambda` and of `nu`. Powers
`discr**0.5` and `discr**1.5` are written with the square root. -/
def Rz_to_lambdanu_hess (R z D : ℝ) : Matrix (Fin 2) (Fin 2) ℝ × Matrix (Fin 2) (Fin 2) ℝ :=
  let R2 := R ^ 2;
  let z2 := z ^ 2;
  let D2 := D ^ 2;
  let discr := (R2 + z2 - D2) ^ 2 + 4 * D2 * R2;
  let s := sqrt discr;
  let d2ldR2 := 1 + (3 * R2 + z2 + D2) / s - 2 * R2 * (R2 + z2 + D2) ^ 2 / s ^ 3;
  let d2ndR2 := 1 - (3 * R2 + z2 + D2) / s + 2 * R2 * (R2 + z2 + D2) ^ 2 / s ^ 3;
  let d2ldz2 := 1 + (R2 + 3 * z2 - D2) / s - 2 * z2 * (R2 + z2 - D2) ^ 2 / s ^ 3;
  let d2ndz2 := 1 - (R2 + 3 * z2 - D2) / s + 2 * z2 * (R2 + z2 - D2) ^ 2 / s ^ 3;
  let d2ldRdz := 2 * R * z / s * (1 - ((R2 + z2) ^ 2 - D ^ 4) / discr);
  let d2ndRdz := 2 * R * z / s * (-1 + ((R2 + z2) ^ 2 - D ^ 4) / discr);
  (!![d2ldR2, d2ldRdz; d2ldRdz, d2ldz2], !![d2ndR2, d2ndRdz; d2ndRdz, d2ndz2])

/-- `lambdanu_to_Rz`, coords.py:2700-2740. -/
def lambdanu_to_Rz (l n ac Delta : ℝ) : ℝ × ℝ :=
  let g := Delta ^ 2 / (1 - ac ^ 2);
  let a := g - Delta ^ 2;
  let r2 := (l + a) * (n + a) / (a - g);
  let z2 := (l + g) * (n + g) / (g - a);
  let r2 := if r2 < 0 ∧ 0 < n + a ∧ n + a < 10 ^ (-10 : ℤ) then 0 else r2;
  let z2 := if z2 < 0 ∧ n + g < 0 ∧ -10 ^ (-10 : ℤ) < n + g then 0 else z2;
  (sqrt r2, sqrt z2)

/-! ### Jacobians -/

/-- `cyl_to_rect_jac` with six arguments, coords.py:1637-1690. -/
def cyl_to_rect_jac (R vR vT Z vZ phi : ℝ) : Matrix (Fin 6) (Fin 6) ℝ :=
  let cp := cos phi;
  let sp := sin phi;
  !![cp, 0, 0, 0, 0, -R * sp;
    sp, 0, 0, 0, 0, R * cp;
    0, 0, 0, 1, 0, 0;
    0, cp, -sp, 0, 0, -vT * cp - vR * sp;
    0, sp, cp, 0, 0, -vT * sp + vR * cp;
    0, 0, 0, 0, 1, 0]

/-- `cyl_to_rect_jac` with three arguments: the columns 0, 3, 5 of the first three rows, the last two
exchanged, coords.py:1687-1690. -/
def cyl_to_rect_jac3 (R phi Z : ℝ) : Matrix (Fin 3) (Fin 3) ℝ :=
  let J := cyl_to_rect_jac R 0 0 Z 0 phi;
  fun i j => J (i.castLE (by omega)) (![0, 5, 3] j)

/-- `galcenrect_to_XYZ_jac` with six arguments, coords.py:1693-1740. -/
def galcenrect_to_XYZ_jac (Xsun Zsun : ℝ) : Matrix (Fin 6) (Fin 6) ℝ :=
  let dgc := sqrt (Xsun ^ 2 + Zsun ^ 2);
  let c := Xsun / dgc;
  let s := Zsun / dgc;
  !![-c, 0, -s, 0, 0, 0;
    0, 1, 0, 0, 0, 0;
    -sgn Xsun * s, 0, sgn Xsun * c, 0, 0, 0;
    0, 0, 0, -c, 0, -s;
    0, 0, 0, 0, 1, 0;
    0, 0, 0, -sgn Xsun * s, 0, sgn Xsun * c]

/-- `_DEGTORAD`, coords.py:88. -/
def DEGTORAD : ℝ := π / 180

/-- `out[:, 0] *= x; out[:, 1] *= x`. -/
def scaleCols (x : ℝ) (J : Matrix (Fin 6) (Fin 6) ℝ) : Matrix (Fin 6) (Fin 6) ℝ :=
  fun i j => if j = 0 ∨ j = 1 then J i j * x else J i j

/-- `out[0, :] *= x; out[1, :] *= x`. -/
def scaleRows (x : ℝ) (J : Matrix (Fin 6) (Fin 6) ℝ) : Matrix (Fin 6) (Fin 6) ℝ :=
  fun i j => if i = 0 ∨ i = 1 then J i j * x else J i j

/-- `lbd_to_XYZ_jac` with six arguments, coords.py:1743-1818; with three arguments the result is the
upper left block of that with zero velocities. -/
def lbd_to_XYZ_jac (K : ℝ) (degree : Bool) (l b D vlos pmll pmbb : ℝ) : Matrix (Fin 6) (Fin 6) ℝ :=
  let l := if degree then l * DEGTORAD else l;
  let b := if degree then b * DEGTORAD else b;
  (fun out => if degree then scaleCols DEGTORAD out else out) <|
  let cl := cos l;
  let sl := sin l;
  let cb := cos b;
  let sb := sin b;
  !![-D * cb * sl, -D * sb * cl, cb * cl, 0, 0, 0;
    D * cb * cl, -D * sb * sl, cb * sl, 0, 0, 0;
    0, D * cb, sb, 0, 0, 0;
    -sl * cb * vlos - cl * K * D * pmll + sb * sl * K * D * pmbb, -cl * sb * vlos - cb * cl * K * D * pmbb,
      -sl * K * pmll - sb * cl * K * pmbb, cl * cb, -sl * K * D, -cl * sb * K * D;
    cl * cb * vlos - sl * K * D * pmll - cl * sb * K * D * pmbb, -sl * sb * vlos - sl * cb * K * D * pmbb,
      cl * K * pmll - sl * sb * K * pmbb, sl * cb, cl * K * D, -sl * sb * K * D;
    0, cb * vlos - sb * K * D * pmbb, cb * K * pmbb, sb, 0, cb * K * D]

/-- Position block of `XYZ_to_lbd_jac`, coords.py:1887-1897. -/
def XYZ_to_lbd_P (D cb sb cl sl : ℝ) : Matrix (Fin 3) (Fin 3) ℝ :=
  !![if cb ≠ 0 then -sl / (D * cb) else 0, if cb ≠ 0 then cl / (D * cb) else 0, 0;
    -sb * cl / D, -sb * sl / D, cb / D;
    cb * cl, cb * sl, sb]

/-- Velocity block, coords.py:1908-1918. -/
def XYZ_to_lbd_M (KD cb sb cl sl : ℝ) : Matrix (Fin 3) (Fin 3) ℝ :=
  !![cl * cb, sl * cb, sb;
    if KD ≠ 0 then -sl / KD else 0, if KD ≠ 0 then cl / KD else 0, 0;
    if KD ≠ 0 then -cl * sb / KD else 0, if KD ≠ 0 then -sl * sb / KD else 0, if KD ≠ 0 then cb / KD else 0]

/-- The matrix `Q`, coords.py:1924-1940. -/
def XYZ_to_lbd_Q (K D cb sb cl sl vX vY vZ : ℝ) : Matrix (Fin 3) (Fin 3) ℝ :=
  let KD := K * D;
  let vlos := cl * cb * vX + sl * cb * vY + sb * vZ;
  let pmll := if KD ≠ 0 then (-sl * vX + cl * vY) / KD else 0;
  let pmbb := if KD ≠ 0 then (-cl * sb * vX - sl * sb * vY + cb * vZ) / KD else 0;
  !![-sl * cb * vlos - cl * KD * pmll + sb * sl * KD * pmbb, -cl * sb * vlos - cb * cl * KD * pmbb,
      -sl * K * pmll - sb * cl * K * pmbb;
    cl * cb * vlos - sl * KD * pmll - cl * sb * KD * pmbb, -sl * sb * vlos - sl * cb * KD * pmbb,
      cl * K * pmll - sl * sb * K * pmbb;
    0, cb * vlos - sb * KD * pmbb, cb * K * pmbb]

/-- The four blocks of a 6 by 6 array: `P`, zero, `B`, `M`. -/
def blocks (P B M : Matrix (Fin 3) (Fin 3) ℝ) : Matrix (Fin 6) (Fin 6) ℝ :=
  !![P 0 0, P 0 1, P 0 2, 0, 0, 0;
    P 1 0, P 1 1, P 1 2, 0, 0, 0;
    P 2 0, P 2 1, P 2 2, 0, 0, 0;
    B 0 0, B 0 1, B 0 2, M 0 0, M 0 1, M 0 2;
    B 1 0, B 1 1, B 1 2, M 1 0, M 1 1, M 1 2;
    B 2 0, B 2 1, B 2 2, M 2 0, M 2 1, M 2 2]

/-- `XYZ_to_lbd_jac` with six arguments, coords.py:1821-1946; with three arguments the result is the
upper left block. -/
def XYZ_to_lbd_jac (K : ℝ) (degree : Bool) (X Y Z vX vY vZ : ℝ) : Matrix (Fin 6) (Fin 6) ℝ :=
  (fun out => if degree then scaleRows (1 / DEGTORAD) out else out) <|
  let R2 := X * X + Y * Y;
  let D := sqrt (R2 + Z * Z);
  let r := sqrt R2;
  let cb := r / D;
  let sb := Z / D;
  let cl := if r = 0 then 1 else X / r;
  let sl := if r = 0 then 0 else Y / r;
  let P := XYZ_to_lbd_P D cb sb cl sl;
  let M := XYZ_to_lbd_M (K * D) cb sb cl sl;
  let Q := XYZ_to_lbd_Q K D cb sb cl sl vX vY vZ;
  blocks P (-M * Q * P) M

/-- `galcenrect_to_galcencyl_jac`, coords.py:1975-2024. -/
def galcenrect_to_galcencyl_jac (x y vx vy : ℝ) : Matrix (Fin 6) (Fin 6) ℝ :=
  let R := sqrt (x * x + y * y);
  let R := if R = 0 then 10 ^ (-30 : ℤ) else R;
  let cp := x / R;
  let sp := y / R;
  let vR := cp * vx + sp * vy;
  let vT := -sp * vx + cp * vy;
  !![cp, sp, 0, 0, 0, 0;
    -sp * vT / R, cp * vT / R, 0, cp, sp, 0;
    sp * vR / R, -cp * vR / R, 0, -sp, cp, 0;
    0, 0, 1, 0, 0, 0;
    0, 0, 0, 0, 0, 1;
    -sp / R, cp / R, 0, 0, 0, 0]

/-- `out[3:5, 0:2] *= _DEGTORAD`. -/
def scaleBlock (x : ℝ) (J : Matrix (Fin 6) (Fin 6) ℝ) : Matrix (Fin 6) (Fin 6) ℝ :=
  fun i j => if (i = 3 ∨ i = 4) ∧ (j = 0 ∨ j = 1) then J i j * x else J i j

/-- `galsky_to_sky_jac` with four arguments, coords.py:2027-2135, for the variables
`(l, b, D, pmll, pmbb, vlos)`. `e` is the epoch keyword, `e0` the default epoch, which the call of
`lb_to_radec` at line 2077 uses. -/
def galsky_to_sky_jac (e0 e : Epoch) (degree : Bool) (l b pmll pmbb : ℝ) : Matrix (Fin 6) (Fin 6) ℝ :=
  let l := if degree then l * DEGTORAD else l;
  let b := if degree then b * DEGTORAD else b;
  (fun out => if degree then scaleBlock DEGTORAD out else out) <|
  let radec := lb_to_radec e0 l b;
  let ra := radec.1;
  let dec := radec.2;
  let kappa := sin e.dec_ngp * cos dec - cos e.dec_ngp * sin dec * cos (ra - e.ra_ngp);
  let sigma := sin (ra - e.ra_ngp) * cos e.dec_ngp;
  let nrm2 := kappa * kappa + sigma * sigma;
  let nrm := sqrt nrm2;
  let cosa := kappa / nrm;
  let sina := sigma / nrm;
  let dsig_dra := cos e.dec_ngp * cos (ra - e.ra_ngp);
  let dkap_dra := cos e.dec_ngp * sin dec * sin (ra - e.ra_ngp);
  let dkap_ddec := -sin e.dec_ngp * sin dec - cos e.dec_ngp * cos dec * cos (ra - e.ra_ngp);
  let dalpha_dra := (kappa * dsig_dra - sigma * dkap_dra) / nrm2;
  let dalpha_ddec := -sigma * dkap_ddec / nrm2;
  let dra_dl := cosa * cos b / cos dec;
  let dra_db := -sina / cos dec;
  let ddec_dl := sina * cos b;
  let ddec_db := cosa;
  let pmra := cosa * pmll - sina * pmbb;
  let pmdec := sina * pmll + cosa * pmbb;
  let dalpha_dl := dalpha_dra * dra_dl + dalpha_ddec * ddec_dl;
  let dalpha_db := dalpha_dra * dra_db + dalpha_ddec * ddec_db;
  !![dra_dl, dra_db, 0, 0, 0, 0;
    ddec_dl, ddec_db, 0, 0, 0, 0;
    0, 0, 1, 0, 0, 0;
    -pmdec * dalpha_dl, -pmdec * dalpha_db, 0, cosa, -sina, 0;
    pmra * dalpha_dl, pmra * dalpha_db, 0, sina, cosa, 0;
    0, 0, 0, 0, 0, 1]

/-- `sky_to_customsky_jac` with four arguments, coords.py:2138-2237, for the variables
`(ra, dec, D, pmra, pmdec, vlos)`. -/
def sky_to_customsky_jac (T : Matrix (Fin 3) (Fin 3) ℝ) (degree : Bool) (ra dec pmra pmdec : ℝ) :
    Matrix (Fin 6) (Fin 6) ℝ :=
  let ra := if degree then ra * DEGTORAD else ra;
  let dec := if degree then dec * DEGTORAD else dec;
  (fun out => if degree then scaleBlock DEGTORAD out else out) <|
  let p := custom_to_radec T 0 (π / 2);
  let kappa := sin p.2 * cos dec - cos p.2 * sin dec * cos (ra - p.1);
  let sigma := sin (ra - p.1) * cos p.2;
  let nrm2_2 := kappa * kappa + sigma * sigma;
  let nrm2 := sqrt nrm2_2;
  let cosa := kappa / nrm2;
  let sina := sigma / nrm2;
  let cosphi2 := cos (radec_to_custom T ra dec).2;
  let dsig_dra := cos p.2 * cos (ra - p.1);
  let dkap_dra := cos p.2 * sin dec * sin (ra - p.1);
  let dkap_ddec := -sin p.2 * sin dec - cos p.2 * cos dec * cos (ra - p.1);
  let dalpha_dra := (kappa * dsig_dra - sigma * dkap_dra) / nrm2_2;
  let dalpha_ddec := -sigma * dkap_ddec / nrm2_2;
  let pmphi1 := cosa * pmra + sina * pmdec;
  let pmphi2 := -sina * pmra + cosa * pmdec;
  !![cosa * cos dec / cosphi2, sina / cosphi2, 0, 0, 0, 0;
    -sina * cos dec, cosa, 0, 0, 0, 0;
    0, 0, 1, 0, 0, 0;
    pmphi2 * dalpha_dra, pmphi2 * dalpha_ddec, 0, cosa, sina, 0;
    -pmphi1 * dalpha_dra, -pmphi1 * dalpha_ddec, 0, -sina, cosa, 0;
    0, 0, 0, 0, 0, 1]

/-! ### Decorators -/

/-- `degreeDecorator(inDegrees, outDegrees)`, coords.py:139-179, around a function of its argument list.
`args` are the arguments given by position, `kw` the values of the remaining parameters, given by keyword:
these reach the function as they are. -/
def degreeDecorator (inDegrees outDegrees : List ℕ) (f : List ℝ → List ℝ) (degree : Bool) (args kw : List ℝ) :
    List ℝ :=
  let args := if degree then args.mapIdx fun i a => if i ∈ inDegrees then a * π / 180 else a else args;
  let out := f (args ++ kw);
  if degree then out.mapIdx fun i a => if i ∈ outDegrees then a * (180 / π) else a else out

/-- `isdeg = kwargs.get("degree", False)`, coords.py:165, for a call with the flag given by position (after the
other arguments, where only the function sees it, which leaves degrees to the decorator, coords.py:244) or by
keyword. -/
def degreeFlag (_position keyword : Option Bool) : Bool := keyword.getD false

/-- The functions under the decorator, as functions of the list of their arguments. -/
def lbd_to_XYZ_list : List ℝ → List ℝ
  | [l, b, d] => List.ofFn (lbd_to_XYZ l b d)
  | _ => []
/-- Ditto. -/
def XYZ_to_lbd_list : List ℝ → List ℝ
  | [X, Y, Z] => List.ofFn (XYZ_to_lbd X Y Z)
  | _ => []
/-- Ditto. -/
def vrpmllpmbb_to_vxvyvz_list (K : ℝ) : List ℝ → List ℝ
  | [vr, pmll, pmbb, l, b, d] => List.ofFn (vrpmllpmbb_to_vxvyvz K vr pmll pmbb l b d)
  | _ => []
/-- Ditto. -/
def radec_to_lb_list (e : Epoch) : List ℝ → List ℝ
  | [ra, dec] => [(radec_to_lb e ra dec).1, (radec_to_lb e ra dec).2]
  | _ => []
/-- Ditto. -/
def lb_to_radec_list (e : Epoch) : List ℝ → List ℝ
  | [l, b] => [(lb_to_radec e l b).1, (lb_to_radec e l b).2]
  | _ => []
/-- Ditto. -/
def pmllpmbb_to_pmrapmdec_list (e : Epoch) : List ℝ → List ℝ
  | [pmll, pmbb, l, b] => [(pmllpmbb_to_pmrapmdec e pmll pmbb l b).1, (pmllpmbb_to_pmrapmdec e pmll pmbb l b).2]
  | _ => []
/-- Ditto. -/
def radec_to_custom_list (T : Matrix (Fin 3) (Fin 3) ℝ) : List ℝ → List ℝ
  | [ra, dec] => [(radec_to_custom T ra dec).1, (radec_to_custom T ra dec).2]
  | _ => []
/-- Ditto. -/
def pmrapmdec_to_custom_list (T : Matrix (Fin 3) (Fin 3) ℝ) : List ℝ → List ℝ
  | [pmra, pmdec, ra, dec] => [(pmrapmdec_to_custom T pmra pmdec ra dec).1, (pmrapmdec_to_custom T pmra pmdec ra dec).2]
  | _ => []

end Verif.Coords
