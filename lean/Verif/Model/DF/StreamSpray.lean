import Verif.Model.UtilNumerics
import Verif.Model.Coords
import Verif.Model.PotQuant

set_option autoImplicit false

/-!
# Particle-spray streams

`galpy/df/streamspraydf.py`: `chen24spraydf` and `fardal15spraydf` for one particle at a time (arrays of particles are done row by row).  The random numbers are
arguments.  The orbits of the progenitor and of the centre are functions of time; their integration, the integration of the particles to the
present, units, the track and `pericenter_stripping_pdf` are not modelled; times drawn with `stripping_pdf` are in `StripTimes`.
-/

noncomputable section
namespace Verif.StreamSpray
open Real Util Coords

/-- A vector in space. -/
abbrev Vec := Fin 3 → ℝ

/-- `leading=` and `tail=` (streamspraydf.py 87-107). -/
def initTail (leading : Option Bool) (tail : Option String) : Except String String :=
  match leading, tail with
  | some _, some _ => .error "ValueError"
  | some l, none => .ok (if l then "leading" else "trailing")
  | none, none => .ok "leading"
  | none, some s => if s = "leading" ∨ s = "trailing" ∨ s = "both" then .ok s else .error "ValueError"

/-- The numbers of leading and trailing particles drawn by `sample` (193-206), the `tail` of the object being `self`. -/
def split (self : String) (tail : Option String) (n : ℕ) : Except String (ℕ × ℕ) :=
  let tail := tail.getD self
  if ¬(tail = "leading" ∨ tail = "trailing" ∨ tail = "both") then .error "ValueError"
  else if tail = "both" then .ok (n / 2, n - n / 2)
  else if tail = "leading" then .ok (n, 0) else .ok (0, n)

/-- The object: positions and velocities of the progenitor and of the centre, if there is one, the potential for the tidal radius and the mass of the
progenitor (`_progenitor_mass_fn`), at each time. -/
structure Obj where
  x : ℝ → Vec
  v : ℝ → Vec
  center : Option ((ℝ → Vec) × (ℝ → Vec))
  rtpot : Pot
  mass : ℝ → ℝ

/-- The time before the present at which a particle is stripped without `stripping_pdf` (539-540), from a uniform random number. -/
def stripTime (tdisrupt u : ℝ) : ℝ := u * tdisrupt

variable (o : Obj)

/-- Position and velocity of the progenitor relative to the centre (548-560, 611-623). -/
def Obj.rel (dt : ℝ) : Vec × Vec :=
  match o.center with
  | none => (o.x (-dt), o.v (-dt))
  | some c => (o.x (-dt) - c.1 (-dt), o.v (-dt) - c.2 (-dt))

/-- `z_rot` (634-640). -/
def zRot (L : Vec) : Matrix (Fin 3) (Fin 3) ℝ := (rotateTo (unitVec L) ![0, 0, 1] true false).transpose
/-- `z_rot_inv` (641-647). -/
def zRotInv (L : Vec) : Matrix (Fin 3) (Fin 3) ℝ := (rotateTo (unitVec L) ![0, 0, 1] false false).transpose

/-- `pa_rot` and `pa_rot_inv` (651-666), after the transposition. -/
def paRot (xt : Vec) : Matrix (Fin 3) (Fin 3) ℝ × Matrix (Fin 3) (Fin 3) ℝ :=
  let Rt := √(xt 0 ^ 2 + xt 1 ^ 2);
  let cosphi := xt 0 / Rt;
  let sinphi := xt 1 / Rt;
  ((!![cosphi, -sinphi, 0; sinphi, cosphi, 0; 0, 0, 1]).transpose, (!![cosphi, sinphi, 0; -sinphi, cosphi, 0; 0, 0, 1]).transpose)

/-- `_setup_rot` (609-669): `rot` and `rot_inv` for the relative position `x` and angular momentum `L`. -/
def setupRot (x L : Vec) : Matrix (Fin 3) (Fin 3) ℝ × Matrix (Fin 3) (Fin 3) ℝ :=
  let pa := paRot ((zRot L).mulVec x);
  (pa.1 * zRot L, zRotInv L * pa.2)

/-- `_calc_rtide` (671-698); the mass is always given. -/
def Obj.calcRtide (R phi z dt : ℝ) : ℝ :=
  match PotQuant.rtide o.rtpot R z phi (-dt) (some (o.mass (-dt))) with
  | .ok r => r
  | .error _ => 0
/-- `_calc_vc` (700-725). -/
def Obj.calcVc (R phi z dt : ℝ) : ℝ := √(-R * o.rtpot.Rforce R z phi (-dt))

/-- `chen24spraydf.spray_df` (937-966) for the draw `posvel`. -/
def Obj.chen24 (posvel : Fin 6 → ℝ) (leading : Bool) (x v : Vec) (dt : ℝ) : Vec × Vec :=
  let c := rect_to_cyl (x 0) (x 1) (x 2);
  let rtides := o.calcRtide c.1 c.2.1 c.2.2 dt;
  let Dr := posvel 0 * rtides;
  let v_esc := √(2 * o.mass (-dt) / Dr);
  let Dv := posvel 3 * v_esc;
  let Dr := if leading then Dr * -1 else Dr;
  let Dv := if leading then Dv * -1 else Dv;
  let s := spher_to_cyl Dr (0.5 * π - posvel 2) (posvel 1);
  let d := cyl_to_rect s.1 s.2.2 s.2.1;
  let sv := spher_to_cyl Dv (0.5 * π - posvel 5) (posvel 4);
  let dv := cyl_to_rect sv.1 sv.2.2 sv.2.1;
  (![x 0 + d.1, x 1 + d.2.1, x 2 + d.2.2], ![v 0 + dv.1, v 1 + dv.2.1, v 2 + dv.2.2])

/-- `k` in `fardal15spraydf.spray_df` (1080-1081) for the standard normal numbers `g`. -/
def fardalK (meankvec sigkvec : Fin 6 → ℝ) (leading : Bool) (g : Fin 6 → ℝ) (i : Fin 6) : ℝ :=
  (if leading then -meankvec i else meankvec i) + g i * sigkvec i

/-- `fardal15spraydf.spray_df` (1071-1103) for the draw `k`. -/
def Obj.fardal15 (k : Fin 6 → ℝ) (x v : Vec) (dt : ℝ) : Vec × Vec :=
  let c := rect_to_cyl (x 0) (x 1) (x 2);
  let Rpt := c.1;
  let phipt := c.2.1;
  let rtides := o.calcRtide Rpt phipt c.2.2 dt;
  let vcs := o.calcVc Rpt phipt c.2.2 dt;
  let frac := rtides / Rpt;
  let vp := rect_to_cyl_vec_cyl (v 0) (v 1) (v 2) phipt;
  let phi := phipt + k 5 * frac;
  let s := cyl_to_rect (Rpt + k 0 * rtides) phi (k 3 * frac);
  let sv := cyl_to_rect_vec (vp.1 * (1 + k 1)) (vp.2.1 + k 2 * vcs * frac) (k 4 * vcs * frac) phi;
  (![s.1, s.2.1, s.2.2], ![sv.1, sv.2.1, sv.2.2])

/-- `_sample_tail` (544-586) for one particle stripped at time `-dt`, with the initial conditions in the instantaneous frame from `spray`: position and velocity in the
frame of the potential. -/
def Obj.particle (spray : Vec → Vec → ℝ → Vec × Vec) (dt : ℝ) : Vec × Vec :=
  let q := o.rel dt;
  let rot := setupRot q.1 (cross q.1 q.2);
  let s := spray (rot.1.mulVec q.1) (rot.1.mulVec q.2) dt;
  let xs := rot.2.mulVec s.1;
  let vs := rot.2.mulVec s.2;
  match o.center with
  | none => (xs, vs)
  | some c => (xs + c.1 (-dt), vs + c.2 (-dt))

/-- The cylindrical coordinates `(R, vR, vT, z, vz, phi)` that `_sample_tail` (587-590, 601-606) makes of them. -/
def cyl (q : Vec × Vec) : Fin 6 → ℝ :=
  let c := rect_to_cyl (q.1 0) (q.1 1) (q.1 2);
  let vc := rect_to_cyl_vec_cyl (q.2 0) (q.2 1) (q.2 2) c.2.1;
  ![c.1, vc.1, vc.2.1, c.2.2, vc.2.2, c.2.1]

end Verif.StreamSpray
